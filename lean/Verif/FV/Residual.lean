import Verif.FV.ReconMesh
import Verif.FV.Visc
import Verif.Flux.Props
import Verif.BC.Model

/-!
# Flow residual and local time steps (C43, C51)

`FlowFV::compute_residual`, `compute_fluxes` and `compute_max_timestep` of src/spatial/flow_spatial.cpp for one rank. What other ranks send is a
parameter: face states `exch` and gradients `gg` of the connectivity ghost cells. Arrays kept between calls (`uface`, `gradvec`)
start with arbitrary contents.
-/

namespace FVENS
namespace FV

open Msh Finset Flux

/-- Gradient schemes, src/spatial/agradientschemes.hpp. -/
inductive GradScheme | zero | greenGauss | wls

/-- Reconstruction schemes, src/spatial/areconstruction.hpp, limitedlinearreconstruction.hpp, musclreconstruction.hpp. -/
inductive ReconScheme | linear | muscl | weno (lam : ℝ) | barthJespersen | venkatakrishnan (K : ℝ)

/-- Discretisation object: geometry, gas, numerical scheme, boundary conditions and tags of the physical boundary faces. -/
structure Disc where
  G : Geo
  gas : Gas
  scheme : Scheme
  viscous : Bool
  constVisc : Bool
  bc : ℤ → Option BC.Obj
  tag : ℕ → ℤ

namespace Disc
variable (D : Disc)

/-- Every physical boundary face has a boundary condition; otherwise `bcs.at` throws inside the parallel
region and the program terminates (outcome `none` below), src/spatial/flow_spatial.cpp:76-92. -/
def BcOk : Prop := ∀ k, k < D.G.m.nbface → (D.bc (D.tag k)).isSome = true

/-- `compute_boundary_state`, src/spatial/flow_spatial.cpp:85-93. -/
noncomputable def bstate (k : ℕ) (ins : St) : St :=
  match D.bc (D.tag k) with
  | some o => o.ghost D.gas ins (D.G.nrm k)
  | none => 0

/-- Flux through a face, integrated over it: src/spatial/flow_spatial.cpp:521-549. -/
noncomputable def faceFlux (second : Bool) (u : ℕ → St) (g : ℕ → Gr) (uL uR ug : ℕ → St) (k : ℕ) : St := fun v =>
  D.scheme.flux D.gas (uL k) (uR k) (D.G.nrm k) v * D.G.len k +
    if D.viscous then
      viscousFlux D.gas second D.constVisc (D.G.nrm k) (D.G.xl k) (D.G.xr k) (u (D.G.face k).left) (D.G.ur u ug k)
        (g (D.G.face k).left) (if k < D.G.m.nbface then g (D.G.face k).left else g (D.G.face k).right) (uL k) (uR k) v * D.G.len k
    else 0

/-- `compute_fluxes`, src/spatial/flow_spatial.cpp:488-563, one thread (see C42 for several). -/
noncomputable def fluxes (second : Bool) (u : ℕ → St) (g : ℕ → Gr) (uL uR ug : ℕ → St) (r : ℕ → St) : ℕ → St :=
  assemble D.G.m.nelem D.G.s.faces (D.faceFlux second u g uL uR ug) r

/-- Face states and residual after a call. -/
structure Out where
  uL : ℕ → St
  uR : ℕ → St
  res : ℕ → St

open Classical in
/-- `compute_residual` of the first-order discretisation, src/spatial/flow_spatial.cpp:636-816 with `secondOrderRequested = false`. -/
noncomputable def residual1 (u : ℕ → St) (r : ℕ → St) : Option Out :=
  if D.BcOk then
    let uL : ℕ → St := fun k => u (D.G.face k).left
    let uR : ℕ → St := fun k => if k < D.G.m.nbface then D.bstate k (uL k) else u (D.G.face k).right
    some ⟨uL, uR, D.fluxes false u 0 uL uR uR r⟩
  else none

/-- Gradients of the cells of the subdomain; rows of connectivity ghosts keep `old`: src/spatial/flow_spatial.cpp:704-708,
src/spatial/agradientschemes.cpp:36-50, 61-214, 318-434. -/
noncomputable def gradients (gs : GradScheme) (u ug : ℕ → St) (old : ℕ → Gr) : ℕ → Gr := fun i =>
  if i < D.G.m.nelem then
    match gs with
    | .zero => 0
    | .greenGauss => D.G.greenGauss u ug i
    | .wls => D.G.wls u ug i
  else old i

/-- Applies a face-wise scheme to all faces. -/
noncomputable def faceArr (f : ℕ → Option (ℝ × Option ℝ)) (a : Bool × ℕ → ℝ) : Option (Bool × ℕ → ℝ) :=
  open Classical in
  if ∀ k < D.G.nface, (f k).isSome = true then
    some fun x => if x.2 < D.G.nface then (if x.1 then ((f x.2).getD (0, none)).1 else (((f x.2).getD (0, none)).2).getD (a x)) else a x
  else none

/-- One variable of `compute_face_values`. Gauss points are the face midpoints, src/spatial/aspatial.cpp:50-61. -/
noncomputable def recon1 (R : ReconScheme) (u ug : ℕ → ℝ) (g : ℕ → Fin 2 → ℝ) (a : Bool × ℕ → ℝ) : Option (Bool × ℕ → ℝ) :=
  match R with
  | .linear => D.faceArr (D.G.linearFace u g D.G.mid) a
  | .muscl => D.faceArr (D.G.musclFace u ug g) a
  | .weno lam => D.G.weno lam u g D.G.mid a
  | .barthJespersen => D.G.barthJespersen u g D.G.mid a
  | .venkatakrishnan K => D.G.venkatakrishnan K u g D.G.mid a

open Classical in
/-- `compute_face_values`; key `(true, k)` is row `k` of `uleft`, `(false, k)` of `uright`. -/
noncomputable def recon (R : ReconScheme) (u ug : ℕ → St) (g : ℕ → Gr) (a : Bool × ℕ → St) : Option (Bool × ℕ → St) :=
  let c := fun v => D.recon1 R (fun i => u i v) (fun k => ug k v) (fun i d => g i d v) (fun x => a x v)
  if ∀ v : Fin 4, (c v).isSome = true then some fun x v => ((c v).getD fun _ => 0) x else none

/-- What the other ranks provide, and previous contents of the arrays kept between calls. -/
structure Env where
  /-- received face states (right states of connectivity faces) -/
  exch : ℕ → St
  /-- received gradients of connectivity ghost cells -/
  gg : ℕ → Gr
  /-- ghost rows of `gradvec` before the call -/
  gold : ℕ → Gr
  /-- `uface` before the call -/
  old : Bool × ℕ → St

open Classical in
/-- `compute_residual` of the second-order discretisation, src/spatial/flow_spatial.cpp:636-816 with `secondOrderRequested = true`. -/
noncomputable def residual2 (gs : GradScheme) (R : ReconScheme) (E : Env) (u : ℕ → St) (r : ℕ → St) : Option Out :=
  if D.BcOk then
    -- 657-695: left states of boundary faces, ghost states from cell values, saved and converted
    let uL0 : ℕ → St := fun k => u (D.G.face k).left
    let ubcell : ℕ → St := fun k => D.bstate k (uL0 k)
    let ugp : ℕ → St := fun k => D.gas.primOfCons (ubcell k)
    -- 697-699
    let up : ℕ → St := fun i => D.gas.primOfCons (u i)
    -- 702-717: gradients; ghost rows are exchanged before reconstruction for WENO only
    let g0 := D.gradients gs up ugp E.gold
    let g1 := D.gradients gs up ugp E.gg
    let a0 : Bool × ℕ → St := fun x => if x.2 < D.G.m.nbface then (if x.1 then uL0 x.2 else ugp x.2) else E.old x
    let grec := match R with
      | .weno _ => g1
      | _ => g0
    -- 719-723
    (D.recon R up ugp grec a0).map fun a =>
      -- 731-754, 776-788
      let uL : ℕ → St := fun k => D.gas.consOfPrim (a (true, k))
      let uR : ℕ → St := fun k => if k < D.G.m.nbface then D.bstate k (uL k)
        else if D.G.inner k then D.gas.consOfPrim (a (false, k)) else E.exch k
      ⟨uL, uR, D.fluxes true u g1 uL uR ubcell r⟩
  else none

variable {D}

/-! ### Free stream -/

theorem eulerFlux_dir (G : Gas) (u : St) (n : V2) (v : Fin 4) :
    G.eulerFlux u n v = n 0 * G.eulerFlux u ![1, 0] v + n 1 * G.eulerFlux u ![0, 1] v := by
  simp only [Gas.eulerFlux, Gas.dirFlux]
  fin_cases v <;> simp [dot, mom] <;> ring

/-- If all face states are the same admissible state and viscous fluxes vanish, nothing is added to any cell. -/
theorem fluxes_uniform (h : D.G.Ok) {c : St} (hc : Adm D.gas c) {second : Bool} {u : ℕ → St} {g : ℕ → Gr} {uL uR ug : ℕ → St}
    (hL : ∀ k, k < D.G.nface → uL k = c) (hR : ∀ k, k < D.G.nface → uR k = c)
    (hu : ∀ i, i < D.G.rows → u i = c) (hug : ∀ k, k < D.G.m.nbface → ug k = c) (hg : ∀ i, i < D.G.rows → g i = 0)
    (r : ℕ → St) {i : ℕ} (hi : i < D.G.m.nelem) : D.fluxes second u g uL uR ug r i = r i := by
  have hflux : ∀ k, k < D.G.nface → D.faceFlux second u g uL uR ug k = fun v =>
      (D.G.len k * D.G.nrm k 0) * D.gas.eulerFlux c ![1, 0] v + (D.G.len k * D.G.nrm k 1) * D.gas.eulerFlux c ![0, 1] v := by
    intro k hk
    obtain ⟨k1, k2, k3, k4, k5⟩ := h.kind hk
    have hl : u (D.G.face k).left = c := hu _ (by unfold Geo.rows; omega)
    have hgl : g (D.G.face k).left = 0 := hg _ (by unfold Geo.rows; omega)
    have hr : D.G.ur u ug k = c := by
      unfold Geo.ur
      split_ifs with hb
      · exact hug k hb
      · exact hu _ (k5 (by omega))
    have hgr : (if k < D.G.m.nbface then g (D.G.face k).left else g (D.G.face k).right) = 0 := by
      split_ifs with hb
      · exact hgl
      · exact hg _ (k5 (by omega))
    funext v
    unfold faceFlux
    rw [hgr, hL k hk, hR k hk, hl, hr, hgl, C52_uniform, C15_consistency _ _ _ hc, eulerFlux_dir]
    simp only [Pi.zero_apply, zero_mul, ite_self, add_zero]
    ring
  unfold fluxes
  rw [assemble_eq]
  have hs : ∑ k ∈ range D.G.s.faces.length, contrib D.G.m.nelem (faceAt D.G.s.faces k) (D.faceFlux second u g uL uR ug k) i =
      - ∑ k ∈ (range D.G.nface).filter (D.G.touches i), D.G.sgn i k • D.faceFlux second u g uL uR ug k := by
    rw [sum_filter, ← sum_neg_distrib]
    refine sum_congr rfl fun k hk => ?_
    obtain ⟨k1, k2, k3, k4, k5⟩ := h.kind (mem_range.1 hk)
    unfold contrib Geo.touches Geo.sgn
    change (if (D.G.face k).right = i ∧ i < D.G.m.nelem then _ else _) - (if (D.G.face k).left = i then _ else _) = _
    by_cases e1 : (D.G.face k).left = i
    · have e2 : ¬ (D.G.face k).right = i := fun e => k2 (by rw [e1, e])
      simp [e1, e2]
    · by_cases e2 : (D.G.face k).right = i
      · simp [e1, e2, hi]
      · simp [e1, e2]
  rw [hs]
  have hz : ∑ k ∈ (range D.G.nface).filter (D.G.touches i), D.G.sgn i k • D.faceFlux second u g uL uR ug k = 0 := by
    funext v
    rw [Finset.sum_apply]
    have : ∀ k ∈ (range D.G.nface).filter (D.G.touches i), (D.G.sgn i k • D.faceFlux second u g uL uR ug k) v =
        D.G.sgn i k * (D.G.len k * D.G.nrm k 0) * D.gas.eulerFlux c ![1, 0] v +
        D.G.sgn i k * (D.G.len k * D.G.nrm k 1) * D.gas.eulerFlux c ![0, 1] v := fun k hk => by
      rw [hflux k (mem_range.1 (mem_filter.1 hk).1)]; simp only [Pi.smul_apply, smul_eq_mul]; ring
    rw [sum_congr rfl this, sum_add_distrib, ← sum_mul, ← sum_mul, Geo.closed_touch h hi, Geo.closed_touch h hi]
    simp
  rw [hz]; simp

/-- C43, first order: if cells and received ghost values hold the same admissible state and all boundaries are far-field boundaries of
that state, the residual does not change, for every flux scheme, viscous or not. -/
theorem C43_first_order (h : D.G.Ok) {c : St} (hc : Adm D.gas c) (hbc : ∀ k, k < D.G.m.nbface → D.bc (D.tag k) = some (.farfield c))
    {u : ℕ → St} (hu : ∀ i, i < D.G.rows → u i = c) (r : ℕ → St) :
    ∃ o, D.residual1 u r = some o ∧ ∀ i, i < D.G.m.nelem → o.res i = r i := by
  have hok : D.BcOk := fun k hk => by rw [hbc k hk]; rfl
  refine ⟨_, by unfold residual1; rw [if_pos hok], fun i hi => ?_⟩
  have hL : ∀ k, k < D.G.nface → u (D.G.face k).left = c := fun k hk =>
    hu _ (by have := (h.kind hk).1; unfold Geo.rows; omega)
  have hR : ∀ k, k < D.G.nface → (if k < D.G.m.nbface then D.bstate k (u (D.G.face k).left) else u (D.G.face k).right) = c := by
    intro k hk
    split_ifs with hb
    · unfold bstate; rw [hbc k hb]; rfl
    · exact hu _ ((h.kind hk).2.2.2.2 (by omega))
  have hb : ∀ k, k < D.G.m.nbface → (if k < D.G.m.nbface then D.bstate k (u (D.G.face k).left) else u (D.G.face k).right) = c := by
    intro k hk
    rw [if_pos hk]; unfold bstate; rw [hbc k hk]; rfl
  exact fluxes_uniform h hc hL hR hu hb (fun _ _ => rfl) r hi

/-- Conditions under which a gradient scheme is defined on the mesh. -/
def GradOk (G : Geo) : GradScheme → Prop
  | .zero => True
  | .greenGauss => G.OffMid
  | .wls => ∀ i, i < G.m.nelem → G.Separate i ∧ G.Spans i

theorem gradients_uniform (h : D.G.Ok) {gs : GradScheme} (hgs : GradOk D.G gs) {c : St} {u ug : ℕ → St} (old : ℕ → Gr)
    (hu : ∀ i, i < D.G.rows → u i = c) (hug : ∀ k, k < D.G.m.nbface → ug k = c) {i : ℕ} (hi : i < D.G.m.nelem) :
    D.gradients gs u ug old i = 0 := by
  unfold gradients
  rw [if_pos hi]
  cases gs with
  | zero => rfl
  | greenGauss => exact Geo.C45_greenGauss_constant h hgs c hu hug hi
  | wls =>
    refine Geo.C45_wls_linear_exact h hi (hgs i hi).1 (hgs i hi).2 c 0 (fun i hi j => ?_) (fun k hk j => ?_)
    · rw [hu i hi]; simp
    · rw [hug k hk]; simp

/-- WENO needs a positive weight. -/
def ReconOk : ReconScheme → Prop
  | .weno lam => 0 < lam
  | _ => True

theorem vanAlbada_zero : vanAlbada 0 0 = 1 := by unfold vanAlbada; norm_num

/-- A uniform field is reconstructed exactly, whatever the ghost rows of the gradients hold (WENO: they must hold zero). -/
theorem recon1_uniform (h : D.G.Ok) {R : ReconScheme} (hR : ReconOk R) {c : ℝ} {u ug : ℕ → ℝ} {g : ℕ → Fin 2 → ℝ} {a b : Bool × ℕ → ℝ}
    (hu : ∀ i, i < D.G.rows → u i = c) (hug : ∀ k, k < D.G.m.nbface → ug k = c) (hg : ∀ i, i < D.G.m.nelem → g i = 0)
    (hw : ∀ lam, R = .weno lam → ∀ i, i < D.G.rows → g i = 0) (hb : D.recon1 R u ug g a = some b) {k : ℕ} (hk : k < D.G.nface) :
    b (true, k) = c ∧ (D.G.inner k → b (false, k) = c) := by
  obtain ⟨k1, k2, k3, k4, k5⟩ := h.kind hk
  have hLr : (D.G.face k).left < D.G.rows := by unfold Geo.rows; omega
  cases R with
  | linear =>
    have e := Geo.C46_linear (G := D.G) h c 0 (u := u) (g := g) (gr := D.G.mid) (fun i hi => by rw [hu i hi]; simp [Geo.lin]) hg hk
    simp only [recon1, faceArr] at hb
    split_ifs at hb
    rw [← Option.some.inj hb]
    simp only [hk, if_true, e, Option.getD_some]
    refine ⟨by simp [Geo.lin], fun hin => by simp [hin, Geo.lin]⟩
  | muscl =>
    simp only [recon1, faceArr] at hb
    split_ifs at hb
    rw [← Option.some.inj hb]
    simp only [hk, if_true, Bool.false_eq_true, if_false]
    by_cases hbd : k < D.G.m.nbface
    · have hni : ¬ D.G.inner k := fun hin => by have := hin.1; omega
      refine ⟨?_, fun hin => absurd hin hni⟩
      simp only [Geo.musclFace, rd, hLr, hbd, if_true, Option.bind_some, Option.getD_some, hu _ hLr, hug k hbd, hg _ k1]
      simp [Geo.musclL, Geo.biasedDiff]
    · have hRr := k5 (by omega)
      have hRr' : (D.G.face k).right < D.G.rows := hRr
      refine ⟨?_, fun hin => ?_⟩
      · simp only [Geo.musclFace, rd, hLr, hbd, hRr', if_true, if_false, Option.bind_some, Option.map_some, Option.getD_some, hu _ hLr,
          hu _ hRr', hg _ k1]
        simp [Geo.musclL, Geo.biasedDiff]
      · simp only [Geo.musclFace, rd, hLr, hbd, hRr', if_true, if_false, Option.bind_some, Option.map_some, Option.getD_some, hu _ hLr,
          hu _ hRr', hg _ k1, hg _ (k4.1 hin)]
        simp [Geo.musclR, Geo.biasedDiff]
  | weno lam =>
    obtain ⟨b', hb', e⟩ := Geo.C46_weno (G := D.G) h hR c 0 (u := u) (g := g) (gr := D.G.mid) (fun i hi => by rw [hu i hi]; simp [Geo.lin])
      (hw lam rfl) a
    simp only [recon1] at hb
    rw [hb'] at hb
    rw [← Option.some.inj hb]
    obtain ⟨e1, e2⟩ := e k hk
    exact ⟨by rw [e1]; simp [Geo.lin], fun hin => by rw [e2 hin]; simp [Geo.lin]⟩
  | barthJespersen =>
    obtain ⟨e1, e2⟩ := Geo.C46_constant_limited h 0 hg (Or.inl hb) hk
    exact ⟨by rw [e1, hu _ hLr], fun hin => by rw [e2 hin, hu _ (k5 hin.1)]⟩
  | venkatakrishnan K =>
    obtain ⟨e1, e2⟩ := Geo.C46_constant_limited h K hg (Or.inr hb) hk
    exact ⟨by rw [e1, hu _ hLr], fun hin => by rw [e2 hin, hu _ (k5 hin.1)]⟩

/-- The schemes that do not read beyond the arrays are defined. -/
theorem recon1_isSome (h : D.G.Ok) {R : ReconScheme} (hR : ReconOk R)
    (hlim : (R = .barthJespersen ∨ ∃ K, R = .venkatakrishnan K) → D.G.m.nbface = 0) (u ug : ℕ → ℝ) (g : ℕ → Fin 2 → ℝ) (a : Bool × ℕ → ℝ) :
    (D.recon1 R u ug g a).isSome = true := by
  cases R with
  | linear =>
    simp only [recon1, faceArr]
    rw [if_pos]
    · rfl
    · intro k hk
      obtain ⟨k1, k2, k3, k4, k5⟩ := h.kind hk
      have hLr : (D.G.face k).left < D.G.rows := by unfold Geo.rows; omega
      unfold Geo.linearFace
      by_cases hin : D.G.inner k
      · have hRr : (D.G.face k).right < D.G.rows := by have := k4.1 hin; unfold Geo.rows; omega
        simp [rd, hLr, hRr, hin]
      · simp [rd, hLr, hin]
  | muscl =>
    simp only [recon1, faceArr]
    rw [if_pos]
    · rfl
    · intro k hk
      obtain ⟨k1, k2, k3, k4, k5⟩ := h.kind hk
      have hLr : (D.G.face k).left < D.G.rows := by unfold Geo.rows; omega
      unfold Geo.musclFace
      by_cases hb : k < D.G.m.nbface
      · simp [rd, hLr, hb]
      · have hRr : (D.G.face k).right < D.G.rows := k5 (by omega)
        simp [rd, hLr, hRr, hb]
  | weno lam =>
    simp only [recon1, Geo.weno]
    rw [if_pos]
    · rfl
    · intro i hi
      obtain ⟨v, hv, _⟩ := C49_convex hR D.G.rows g (i := i) (by unfold Geo.rows; omega) (D.G.nbrs i)
      rw [hv]; rfl
  | barthJespersen => exact ((Geo.C48_exact h 0 u g D.G.mid a).1).2 (hlim (Or.inl rfl))
  | venkatakrishnan K => exact ((Geo.C48_exact h K u g D.G.mid a).2).2 (hlim (Or.inr ⟨K, rfl⟩))

/-- C43, second order: with far-field boundaries of the same state, uniform cell and ghost values, and uniform states and zero gradients
received from other ranks, the residual does not change — for every flux, gradient and reconstruction scheme (the limiters where defined,
C48) and for any previous contents of the work arrays. The states sent to the other ranks are uniform too. -/
theorem C43_second_order (h : D.G.Ok) {c : St} (hc : Adm D.gas c) (hbc : ∀ k, k < D.G.m.nbface → D.bc (D.tag k) = some (.farfield c))
    {gs : GradScheme} (hgs : GradOk D.G gs) {R : ReconScheme} (hR : ReconOk R)
    (hlim : (R = .barthJespersen ∨ ∃ K, R = .venkatakrishnan K) → D.G.m.nbface = 0)
    {u : ℕ → St} (hu : ∀ i, i < D.G.rows → u i = c) {E : Env}
    (hex : ∀ k, k < D.G.nface → D.G.m.nbface ≤ k → ¬ D.G.inner k → E.exch k = c) (hgg : ∀ i, i < D.G.rows → E.gg i = 0) (r : ℕ → St) :
    ∃ o, D.residual2 gs R E u r = some o ∧ (∀ i, i < D.G.m.nelem → o.res i = r i) ∧ ∀ k, k < D.G.nface → o.uL k = c := by
  have hok : D.BcOk := fun k hk => by rw [hbc k hk]; rfl
  have hbs : ∀ k, k < D.G.m.nbface → ∀ x, D.bstate k x = c := fun k hk x => by unfold bstate; rw [hbc k hk]; rfl
  have hcp : D.gas.consOfPrim (D.gas.primOfCons c) = c := C01_cons_prim_cons D.gas hc.g1.ne' c hc.rho'
  unfold residual2
  rw [if_pos hok]
  set ugp : ℕ → St := fun k => D.gas.primOfCons (D.bstate k (u (D.G.face k).left)) with hugp
  set up : ℕ → St := fun i => D.gas.primOfCons (u i) with hup
  set p := D.gas.primOfCons c with hp
  have up1 : ∀ i, i < D.G.rows → up i = p := fun i hi => by rw [hup]; simp only; rw [hu i hi]
  have ug1 : ∀ k, k < D.G.m.nbface → ugp k = p := fun k hk => by rw [hugp]; simp only; rw [hbs k hk]
  have gz : ∀ old, ∀ i, i < D.G.m.nelem → D.gradients gs up ugp old i = 0 := fun old i hi => gradients_uniform h hgs old up1 ug1 hi
  have gz1 : ∀ i, i < D.G.rows → D.gradients gs up ugp E.gg i = 0 := fun i hi => by
    by_cases hi' : i < D.G.m.nelem
    · exact gz _ i hi'
    · unfold gradients; rw [if_neg hi']; exact hgg i hi
  dsimp only
  generalize hgr : (match R with
      | .weno _ => D.gradients gs up ugp E.gg
      | _ => D.gradients gs up ugp E.gold) = grec
  generalize ha0 : (fun x : Bool × ℕ => if x.2 < D.G.m.nbface then (if x.1 then u (D.G.face x.2).left else ugp x.2) else E.old x) = a0
  have hg : ∀ i, i < D.G.m.nelem → grec i = 0 := fun i hi => by
    rw [← hgr]; cases R <;> exact gz _ i hi
  have hw : ∀ lam, R = .weno lam → ∀ i, i < D.G.rows → grec i = 0 := fun lam hl i hi => by
    rw [← hgr, hl]; exact gz1 i hi
  have hsome : ∀ v : Fin 4, (D.recon1 R (fun i => up i v) (fun k => ugp k v) (fun i d => grec i d v) (fun x => a0 x v)).isSome = true :=
    fun v => recon1_isSome h hR hlim _ _ _ _
  have hrec : ∃ a, D.recon R up ugp grec a0 = some a ∧ ∀ k, k < D.G.nface → a (true, k) = p ∧ (D.G.inner k → a (false, k) = p) := by
    refine ⟨_, by unfold recon; simp only; rw [if_pos hsome], fun k hk => ?_⟩
    have key : ∀ v, ((D.recon1 R (fun i => up i v) (fun k => ugp k v) (fun i d => grec i d v) (fun x => a0 x v)).getD fun _ => 0) (true, k) = p v ∧
        (D.G.inner k → ((D.recon1 R (fun i => up i v) (fun k => ugp k v) (fun i d => grec i d v) (fun x => a0 x v)).getD fun _ => 0) (false, k) = p v) := by
      intro v
      obtain ⟨b, hb⟩ := Option.isSome_iff_exists.1 (hsome v)
      have := recon1_uniform h hR (c := p v) (fun i hi => by rw [up1 i hi]) (fun k hk => by rw [ug1 k hk])
        (fun i hi => by funext d; rw [hg i hi]; rfl) (fun lam hl i hi => by funext d; rw [hw lam hl i hi]; rfl) hb hk
      rw [hb]; exact this
    exact ⟨funext fun v => (key v).1, fun hin => funext fun v => (key v).2 hin⟩
  obtain ⟨a, ha, hap⟩ := hrec
  rw [ha]
  refine ⟨_, rfl, fun i hi => ?_, fun k hk => ?_⟩
  · refine fluxes_uniform h hc (fun k hk => ?_) (fun k hk => ?_) hu (fun k hk => hbs k hk _) gz1 r hi
    · simp only [(hap k hk).1, hcp]
    · split_ifs with hb hin
      · exact hbs k hb _
      · rw [(hap k hk).2 hin, hcp]
      · exact hex k hk (by omega) hin
  · simp only [(hap k hk).1, hcp]

/-- The free stream computed from the configuration is admissible. -/
theorem freestream_adm (G : Gas) (hg : 1 < G.g) (hM : 0 < G.Minf) (aoa : ℝ) : Adm G (G.freestream aoa) := by
  obtain ⟨h0, _, _, hp, _⟩ := C06_freestream G hg hM aoa
  exact ⟨hg, by rw [h0]; norm_num, by rw [hp]; have : 0 < G.g := by linarith
                                      positivity⟩

/-- C43 for the state the program starts from: one far-field marker per boundary, built from the control file by `createFlowBCs`. -/
theorem C43_freestream (h : D.G.Ok) (hg : 1 < D.gas.g) (hM : 0 < D.gas.Minf) (aoa : ℝ)
    (hbc : ∀ k, k < D.G.m.nbface → D.bc (D.tag k) = some (.farfield (D.gas.freestream aoa)))
    {u : ℕ → St} (hu : ∀ i, i < D.G.rows → u i = D.gas.freestream aoa) (r : ℕ → St) :
    ∃ o, D.residual1 u r = some o ∧ ∀ i, i < D.G.m.nelem → o.res i = r i :=
  C43_first_order h (freestream_adm D.gas hg hM aoa) hbc hu r

/-! ### Local time steps -/

/-- Convective and viscous wave speed of a side, times the length: src/spatial/flow_spatial.cpp:589-618. `ar` is the area of the side's cell. -/
noncomputable def specRad (D : Disc) (u : St) (k : ℕ) (ar : ℝ) : ℝ :=
  (|dot (mom u) (D.G.nrm k) / u 0| + D.gas.soundSpeedC u) * D.G.len k +
    if D.viscous then
      max (4 / (3 * u 0)) (D.gas.g / u 0) * (if D.constVisc then D.gas.constViscosity else D.gas.viscosityC u) / D.gas.Pr * D.G.len k * D.G.len k / ar
    else 0

/-- Accumulation of `integ`, src/spatial/flow_spatial.cpp:572-627. (For a right cell outside the subdomain the code leaves out the viscous part
of a value it does not use.) -/
noncomputable def integ (D : Disc) (uL uR : ℕ → St) : ℕ → ℝ :=
  forLt D.G.s.faces.length (fun _ => 0) fun k r =>
    let F := faceAt D.G.s.faces k
    let r1 := upd r F.left (r F.left + D.specRad (uL k) k (D.G.ar F.left))
    if F.right < D.G.m.nelem then upd r1 F.right (r1 F.right + D.specRad (uR k) k (D.G.ar F.right)) else r1

/-- `compute_max_timestep`, src/spatial/flow_spatial.cpp:565-634. -/
noncomputable def timestep (D : Disc) (uL uR : ℕ → St) (i : ℕ) : ℝ := D.G.ar i / D.integ uL uR i

/-- Wave-speed integral of a face as seen from one of its cells. -/
noncomputable def sideRad (D : Disc) (uL uR : ℕ → St) (i k : ℕ) : ℝ :=
  D.specRad (if (D.G.face k).left = i then uL k else uR k) k (D.G.ar i)

/-- C51: the accumulated value is the sum over the faces of the cell, each with the state on the cell's side. -/
theorem C51_integral (h : D.G.Ok) (uL uR : ℕ → St) {i : ℕ} (hi : i < D.G.m.nelem) :
    D.integ uL uR i = ∑ k ∈ (range D.G.nface).filter (D.G.touches i), D.sideRad uL uR i k := by
  have key : ∀ n, forLt n (fun _ => (0 : ℝ)) (fun k r =>
      let F := faceAt D.G.s.faces k
      let r1 := upd r F.left (r F.left + D.specRad (uL k) k (D.G.ar F.left))
      if F.right < D.G.m.nelem then upd r1 F.right (r1 F.right + D.specRad (uR k) k (D.G.ar F.right)) else r1) i =
      ∑ k ∈ range n, ((if (D.G.face k).left = i then D.specRad (uL k) k (D.G.ar i) else 0) +
        if (D.G.face k).right = i then D.specRad (uR k) k (D.G.ar i) else 0) := by
    intro n
    induction n with
    | zero => rfl
    | succ n ih =>
      rw [forLt_succ, sum_range_succ]
      change _ = _ + ((if (faceAt D.G.s.faces n).left = i then _ else 0) + if (faceAt D.G.s.faces n).right = i then _ else 0)
      by_cases hr : (faceAt D.G.s.faces n).right < D.G.m.nelem
      · simp only [hr, if_true]
        rw [upd_add, upd_add, ih, add_assoc]
        congr 2
        · split_ifs with e
          · rw [e]
          · rfl
        · split_ifs with e
          · rw [e]
          · rfl
      · have hne : ¬ (faceAt D.G.s.faces n).right = i := by omega
        simp only [hr, if_false, hne, add_zero]
        rw [upd_add, ih]
        congr 1
        split_ifs with e
        · rw [e]
        · rfl
  unfold integ
  rw [key, sum_filter]
  refine sum_congr rfl fun k hk => ?_
  obtain ⟨k1, k2, _⟩ := h.kind (mem_range.1 hk)
  unfold Geo.touches sideRad
  by_cases e1 : (D.G.face k).left = i
  · have e2 : ¬ (D.G.face k).right = i := fun e => k2 (by rw [e1, e])
    simp [e1, e2]
  · by_cases e2 : (D.G.face k).right = i <;> simp [e1, e2]

/-- Physical parameters. -/
structure GasOk (D : Disc) : Prop where
  pr : 0 < D.gas.Pr
  mach : 0 < D.gas.Minf
  tinf : 0 < D.gas.Tinf
  re : 0 < D.gas.Reinf

theorem soundSpeed_pos {G : Gas} {u : St} (hu : Adm G u) : 0 < G.soundSpeedC u := by
  unfold Gas.soundSpeedC Gas.soundSpeed
  apply Real.sqrt_pos.2
  have := hu.rho; have := hu.p; have := hu.g1
  have : 0 < G.g := by linarith
  positivity

theorem viscosity_nonneg {u : St} (hu : Adm D.gas u) (hD : GasOk D) :
    0 ≤ if D.constVisc then D.gas.constViscosity else D.gas.viscosityC u := by
  have h1 := hD.re; have h2 := hD.tinf; have h3 := hD.mach; have h4 := hu.rho; have h5 := hu.p; have h6 := hu.g1
  have h7 : 0 < D.gas.g := by linarith
  split_ifs
  · unfold Gas.constViscosity; positivity
  · have hT : 0 < D.gas.temperatureC u := by unfold Gas.temperatureC Gas.temperature; positivity
    unfold Gas.viscosityC Gas.viscosityT sC
    positivity

theorem convective_le_specRad {u : St} (hu : Adm D.gas u) (hD : GasOk D) {k : ℕ} {ar : ℝ} (har : 0 < ar) :
    (|dot (mom u) (D.G.nrm k) / u 0| + D.gas.soundSpeedC u) * D.G.len k ≤ D.specRad u k ar := by
  unfold specRad
  have h0 : 0 ≤ if D.viscous then max (4 / (3 * u 0)) (D.gas.g / u 0) *
      (if D.constVisc then D.gas.constViscosity else D.gas.viscosityC u) / D.gas.Pr * D.G.len k * D.G.len k / ar else 0 := by
    by_cases hv : D.viscous
    · have h1 := viscosity_nonneg hu hD
      have h2 : 0 ≤ max (4 / (3 * u 0)) (D.gas.g / u 0) := le_max_of_le_left (by have := hu.rho; positivity)
      have := hD.pr
      rw [if_pos hv, mul_assoc _ (D.G.len k) (D.G.len k)]
      have := mul_self_nonneg (D.G.len k)
      positivity
    · simp [hv]
  linarith

theorem len_pos (h : D.G.Ok) {k : ℕ} (hk : k < D.G.nface) : 0 < D.G.len k := by
  obtain ⟨⟨f, hf, he⟩, _⟩ := face_local h.conf h.topo (faceAt_mem (faces := D.G.s.faces) hk)
  have hz := h.nz _ hf
  unfold Geo.len
  apply fLen_pos
  rcases Sym2.eq_iff.1 he with ⟨e1, e2⟩ | ⟨e1, e2⟩
  · change D.G.m.coords (faceAt D.G.s.faces k).n0 ≠ D.G.m.coords (faceAt D.G.s.faces k).n1
    rw [← e1, ← e2]; exact hz
  · change D.G.m.coords (faceAt D.G.s.faces k).n0 ≠ D.G.m.coords (faceAt D.G.s.faces k).n1
    rw [← e1, ← e2]; exact hz.symm

theorem specRad_pos (h : D.G.Ok) {u : St} (hu : Adm D.gas u) (hD : GasOk D) {k : ℕ} (hk : k < D.G.nface) {ar : ℝ} (har : 0 < ar) :
    0 < D.specRad u k ar := by
  refine lt_of_lt_of_le ?_ (convective_le_specRad hu hD har)
  have := soundSpeed_pos hu; have := len_pos h hk
  positivity

/-- C51: with admissible face states and positive area each local time step is positive and does not exceed the area over the convective
wave speed integral of any of the cell's faces. -/
theorem C51_positive_bounded (h : D.G.Ok) (hD : GasOk D) {uL uR : ℕ → St} (hL : ∀ k, k < D.G.nface → Adm D.gas (uL k))
    (hR : ∀ k, k < D.G.nface → D.G.inner k → Adm D.gas (uR k)) {i : ℕ} (hi : i < D.G.m.nelem) (har : 0 < D.G.ar i) :
    0 < D.timestep uL uR i ∧ ∀ k, k < D.G.nface → D.G.touches i k →
      let u := if (D.G.face k).left = i then uL k else uR k
      D.timestep uL uR i * ((|dot (mom u) (D.G.nrm k) / u 0| + D.gas.soundSpeedC u) * D.G.len k) ≤ D.G.ar i := by
  have hadm : ∀ k, k < D.G.nface → D.G.touches i k → Adm D.gas (if (D.G.face k).left = i then uL k else uR k) := by
    intro k hk ht
    obtain ⟨k1, k2, k3, k4, k5⟩ := h.kind hk
    split_ifs with e
    · exact hL k hk
    · exact hR k hk (k4.2 (by rw [ht.resolve_left e]; exact hi))
  have hpos : ∀ k ∈ (range D.G.nface).filter (D.G.touches i), 0 < D.sideRad uL uR i k := by
    intro k hk
    obtain ⟨hk, ht⟩ := mem_filter.1 hk
    exact specRad_pos h (hadm k (mem_range.1 hk) ht) hD (mem_range.1 hk) har
  have hne : ((range D.G.nface).filter (D.G.touches i)).Nonempty := by
    obtain ⟨h1, j, _, h2⟩ := Geo.Ok.cface_spec h hi (f := 0) (by have := h.conf.lin.three i hi; omega)
    refine ⟨D.G.cface i 0, mem_filter.2 ⟨mem_range.2 h1, ?_⟩⟩
    rcases h2 with ⟨_, e, _⟩ | ⟨_, e, _⟩
    · exact Or.inl e
    · exact Or.inr e
  have hI := C51_integral h uL uR hi
  have hIp : 0 < D.integ uL uR i := by rw [hI]; exact sum_pos hpos hne
  refine ⟨div_pos har hIp, fun k hk ht => ?_⟩
  intro u
  have hle : (|dot (mom u) (D.G.nrm k) / u 0| + D.gas.soundSpeedC u) * D.G.len k ≤ D.integ uL uR i := by
    refine (convective_le_specRad (hadm k hk ht) hD har).trans ?_
    rw [hI]
    exact single_le_sum (f := fun k => D.sideRad uL uR i k) (fun k hk => (hpos k hk).le) (mem_filter.2 ⟨mem_range.2 hk, ht⟩)
  unfold timestep
  rw [div_mul_eq_mul_div, div_le_iff₀ hIp]
  exact mul_le_mul_of_nonneg_left hle har.le

/-- Updates of one face, atomic: src/spatial/flow_spatial.cpp:620-626. -/
noncomputable def integUpds (D : Disc) (uL uR : ℕ → St) (k : ℕ) : List (Upd ℕ ℝ) :=
  let F := faceAt D.G.s.faces k
  ⟨F.left, D.specRad (uL k) k (D.G.ar F.left), true⟩ ::
    if F.right < D.G.m.nelem then [⟨F.right, D.specRad (uR k) k (D.G.ar F.right), true⟩] else []

/-- C51: any number of threads, distribution of the faces and interleaving give the same time steps. -/
theorem C51_threads (h : D.G.Ok) {n : ℕ} {uL uR : ℕ → St} {mem : ℕ → ℝ}
    (hp : ParLoop n (fun _ => 0) (List.range D.G.nface) (D.integUpds uL uR) mem) {i : ℕ} (hi : i < D.G.m.nelem) :
    D.G.ar i / mem i = D.timestep uL uR i := by
  unfold timestep
  congr 1
  rw [parLoop_det hp (fun k _ u hu hua => ?_) i, C51_integral h uL uR hi, zero_add, sum_filter, ← List.sum_toFinset _ List.nodup_range]
  · rw [List.toFinset_range]
    refine sum_congr rfl fun k hk => ?_
    obtain ⟨k1, k2, k3, k4, k5⟩ := h.kind (mem_range.1 hk)
    unfold integUpds Geo.touches sideRad amtAt
    change (List.map _ ((⟨(D.G.face k).left, D.specRad (uL k) k (D.G.ar (D.G.face k).left), true⟩ : Upd ℕ ℝ) :: if (D.G.face k).right < D.G.m.nelem then [⟨(D.G.face k).right, D.specRad (uR k) k (D.G.ar (D.G.face k).right), true⟩] else [])).sum = _
    by_cases e1 : (D.G.face k).left = i
    · have e2 : ¬ (D.G.face k).right = i := fun e => k2 (by rw [e1, e])
      by_cases hr : (D.G.face k).right < D.G.m.nelem <;> simp [e1, e2, hr]
    · by_cases e2 : (D.G.face k).right = i
      · rw [if_pos (by omega)]; simp [e1, e2]
      · by_cases hr : (D.G.face k).right < D.G.m.nelem <;> simp [e1, e2, hr]
  · unfold integUpds at hu
    simp only at hu
    split_ifs at hu
    · simp only [List.mem_cons, List.not_mem_nil, or_false] at hu
      rcases hu with rfl | rfl <;> cases hua
    · simp only [List.mem_cons, List.not_mem_nil, or_false] at hu
      subst hu; cases hua

/-! ### Example -/

/-- Air over the example mesh (quadrilateral, triangle, one interface face), all boundaries far-field, viscous, Roe scheme. -/
noncomputable def exDisc : Disc where
  G := exGeo
  gas := air
  scheme := .roe
  viscous := true
  constVisc := false
  bc := fun t => if t = 7 then some (.farfield (air.freestream 0)) else none
  tag := fun _ => 7

theorem exGeo_spans1 : exGeo.Spans 1 ∧ exGeo.Separate 1 := by
  obtain ⟨hn, f0, f1, f2, f3, f4, f5⟩ := exGeo_face
  obtain ⟨l0, l1, l2, l3, l4, l5, r0, r1, r2, r3, r4, r5⟩ := exGeo_lr
  refine ⟨⟨1, 5, by omega, by omega, ?_, ?_, ?_⟩, ?_⟩
  · left; rw [f1]
  · left; rw [f5]
  · simp only [Geo.dr, l1, l5, r1, r5]; norm_num
  · intro k hk ht
    rw [hn] at hk
    obtain rfl | rfl | rfl | rfl | rfl | rfl : k = 0 ∨ k = 1 ∨ k = 2 ∨ k = 3 ∨ k = 4 ∨ k = 5 := by omega
    all_goals
      intro e
      have e0 := congrFun e 0
      have e1 := congrFun e 1
      simp only [Geo.dr, l0, l1, l2, l3, l4, l5, r0, r1, r2, r3, r4, r5, Pi.zero_apply] at e0 e1
      first | (norm_num at e0; done) | norm_num at e1

theorem exDisc_gradOk (gs : GradScheme) : GradOk exDisc.G gs := by
  cases gs with
  | zero => trivial
  | greenGauss => exact exGeo_offMid
  | wls =>
    intro i hi
    have hi : i < 2 := hi
    obtain rfl | rfl : i = 0 ∨ i = 1 := by omega
    · exact ⟨exGeo_spans.2, exGeo_spans.1⟩
    · exact ⟨exGeo_spans1.2, exGeo_spans1.1⟩

/-- Hypotheses of `C43_second_order` are met for all gradient schemes, with WENO, and garbage in the work arrays. -/
example (gs : GradScheme) (junk : ℕ → Gr) (old : Bool × ℕ → St) :
    ∃ o, exDisc.residual2 gs (.weno 1000) ⟨fun _ => air.freestream 0, fun _ => 0, junk, old⟩ (fun _ => air.freestream 0) (fun _ => 0) = some o ∧
      (∀ i, i < 2 → o.res i = 0) ∧ ∀ k, k < exGeo.nface → o.uL k = air.freestream 0 :=
  C43_second_order (D := exDisc) exGeo_ok (freestream_adm air (by norm_num [air]) (by norm_num [air]) 0) (fun k _ => by simp [exDisc])
    (exDisc_gradOk gs) (R := .weno 1000) (show (0 : ℝ) < 1000 by norm_num) (fun h => by rcases h with h | ⟨K, h⟩ <;> cases h) (fun _ _ => rfl) (fun _ _ _ _ => rfl)
    (fun _ _ => rfl) _

/-- A face without boundary condition stops the program. -/
example : { exDisc with tag := fun _ => 8 }.residual1 (fun _ => air.freestream 0) (fun _ => 0) = none := by
  unfold residual1
  rw [if_neg]
  intro h
  have := h 0 (by show 0 < 4; decide)
  simp [exDisc] at this

/-- Hypotheses of `C51_positive_bounded` are met. -/
example : 0 < exDisc.timestep (fun _ => air.freestream 0) (fun _ => air.freestream 0) 1 :=
  (C51_positive_bounded (D := exDisc) exGeo_ok ⟨by norm_num [exDisc, air], by norm_num [exDisc, air], by norm_num [exDisc, air], by norm_num [exDisc, air]⟩
    (fun _ _ => freestream_adm air (by norm_num [air]) (by norm_num [air]) 0) (fun _ _ _ => freestream_adm air (by norm_num [air]) (by norm_num [air]) 0)
    (by show 1 < 2; decide) (by norm_num [exDisc, exGeo])).1

end Disc
end FV
end FVENS
