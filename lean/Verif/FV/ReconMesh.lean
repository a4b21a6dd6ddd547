import Verif.FV.Recon
import Verif.FV.Race

/-!
# Reconstruction on a mesh (C46–C48)
-/

namespace FVENS
namespace FV
namespace Geo

open Msh Finset

variable {G : Geo}

/-- Rows of the cell arrays. -/
def rows (G : Geo) : ℕ := G.m.nelem + G.m.nconnface

/-- `gesuel(ielem, j)` for the faces of a cell. -/
def nbrs (G : Geo) (i : ℕ) : List ℕ := (List.range (G.m.nfael i)).map fun f => (G.s.esuel i f).getD 0
/-- `gelemface(ielem, j)`. -/
def cface (G : Geo) (i f : ℕ) : ℕ := (G.s.elemface i f).getD 0

/-- The last loop of the cell-wise schemes: writes the value of each face of each cell to the left array if the neighbour
has the larger number, else to the right array, src/spatial/limitedlinearreconstruction.cpp:87-102, 161-172, 253-264. Key `(true, k)` is
`ufl(k)`, `(false, k)` is `ufr(k)`. -/
def cellWrite (G : Geo) (val : ℕ → ℕ → ℝ) (a : Bool × ℕ → ℝ) : Bool × ℕ → ℝ :=
  forLt G.m.nelem a fun i a => forLt (G.m.nfael i) a fun f a =>
    Function.update a (decide (i < (G.s.esuel i f).getD 0), G.cface i f) (val i (G.cface i f))

/-- Unlimited differences at the faces of a cell. -/
def diffs (G : Geo) (u : ℕ → ℝ) (g : ℕ → Fin 2 → ℝ) (gr : ℕ → Fin 2 → ℝ) (i : ℕ) : List ℝ :=
  (List.range (G.m.nfael i)).map fun f => linExt (u i) (g i) 1 (gr (G.cface i f)) (G.rc i) - u i

/-- `BarthJespersenLimiter::compute_face_values`, src/spatial/limitedlinearreconstruction.cpp:116-176: undefined if a row is read that does not
exist. -/
noncomputable def barthJespersen (G : Geo) (u : ℕ → ℝ) (g : ℕ → Fin 2 → ℝ) (gr : ℕ → Fin 2 → ℝ) (a : Bool × ℕ → ℝ) : Option (Bool × ℕ → ℝ) :=
  if ∀ i < G.m.nelem, (duRange G.rows u i (G.nbrs i)).isSome then
    some (G.cellWrite (fun i k =>
      let p := (duRange G.rows u i (G.nbrs i)).getD (0, 0)
      linExt (u i) (g i) (bjLim p.1 p.2 (G.diffs u g gr i)) (gr k) (G.rc i)) a)
  else none

/-- Characteristic length: longest edge, src/spatial/limitedlinearreconstruction.cpp:188-203. -/
noncomputable def clength (G : Geo) (i : ℕ) : ℝ :=
  √(forLt (G.m.nnode i) 0 fun f c =>
    let x := G.m.coords (G.m.inpoel i f)
    let y := G.m.coords (G.m.inpoel i ((f + 1) % G.m.nnode i))
    let llen := (x 0 - y 0) ^ 2 + (x 1 - y 1) ^ 2
    if c < llen then llen else c)

/-- `VenkatakrishnanLimiter::compute_face_values`, src/spatial/limitedlinearreconstruction.cpp:208-268. -/
noncomputable def venkatakrishnan (G : Geo) (K : ℝ) (u : ℕ → ℝ) (g : ℕ → Fin 2 → ℝ) (gr : ℕ → Fin 2 → ℝ) (a : Bool × ℕ → ℝ) :
    Option (Bool × ℕ → ℝ) :=
  if ∀ i < G.m.nelem, (duRange G.rows u i (G.nbrs i)).isSome then
    some (G.cellWrite (fun i k =>
      let p := (duRange G.rows u i (G.nbrs i)).getD (0, 0)
      linExt (u i) (g i) (venkLim ((K * G.clength i) ^ 3) p.1 p.2 (G.diffs u g gr i)) (gr k) (G.rc i)) a)
  else none

/-- `WENOReconstruction::compute_face_values`, src/spatial/limitedlinearreconstruction.cpp:38-105. -/
noncomputable def weno (G : Geo) (lam : ℝ) (u : ℕ → ℝ) (g : ℕ → Fin 2 → ℝ) (gr : ℕ → Fin 2 → ℝ) (a : Bool × ℕ → ℝ) :
    Option (Bool × ℕ → ℝ) :=
  if ∀ i < G.m.nelem, (wenoGrad lam G.rows g i (G.nbrs i)).isSome then
    some (G.cellWrite (fun i k => linExt (u i) ((wenoGrad lam G.rows g i (G.nbrs i)).getD 0) 1 (gr k) (G.rc i)) a)
  else none

/-- `LinearUnlimitedReconstruction::compute_face_values` for one face, src/spatial/areconstruction.cpp:52-103: left value, and right value for
interior faces. -/
noncomputable def linearFace (G : Geo) (u : ℕ → ℝ) (g : ℕ → Fin 2 → ℝ) (gr : ℕ → Fin 2 → ℝ) (k : ℕ) : Option (ℝ × Option ℝ) :=
  (rd G.rows u (G.face k).left).bind fun ui => (rd G.rows g (G.face k).left).bind fun gi =>
    let l := linExt ui gi 1 (gr k) (G.rc (G.face k).left)
    if G.inner k then (rd G.rows u (G.face k).right).bind fun uj => (rd G.rows g (G.face k).right).map fun gj =>
      (l, some (linExt uj gj 1 (gr k) (G.rc (G.face k).right)))
    else some (l, none)

/-- `computeBiasedDifference`, src/spatial/musclreconstruction.cpp:33-43. -/
def biasedDiff (ri rj : Fin 2 → ℝ) (ui uj : ℝ) (g : Fin 2 → ℝ) : ℝ :=
  2 * ((0 + g 0 * (rj 0 - ri 0)) + g 1 * (rj 1 - ri 1)) - (uj - ui)

/-- `musclReconstructLeft`, `musclReconstructRight`, src/spatial/musclreconstruction.cpp:45-59, k = 1/3. -/
noncomputable def musclL (ui uj deltam phi : ℝ) : ℝ := ui + phi / 4 * ((1 - 1 / 3 * phi) * deltam + (1 + 1 / 3 * phi) * (uj - ui))
noncomputable def musclR (ui uj deltap phi : ℝ) : ℝ := uj - phi / 4 * ((1 - 1 / 3 * phi) * deltap + (1 + 1 / 3 * phi) * (uj - ui))

/-- `MUSCLVanAlbada::compute_face_values` for one face, src/spatial/musclreconstruction.cpp:69-130. -/
noncomputable def musclFace (G : Geo) (u ug : ℕ → ℝ) (g : ℕ → Fin 2 → ℝ) (k : ℕ) : Option (ℝ × Option ℝ) :=
  (rd G.rows u (G.face k).left).bind fun ui => (rd G.rows g (G.face k).left).bind fun gi =>
    if k < G.m.nbface then
      let deltam := biasedDiff (G.rc (G.face k).left) (G.rcbp k) ui (ug k) gi
      some (musclL ui (ug k) deltam (vanAlbada deltam (ug k - ui)), none)
    else (rd G.rows u (G.face k).right).bind fun uj => (rd G.rows g (G.face k).right).map fun gj =>
      let deltam := biasedDiff (G.rc (G.face k).left) (G.rc (G.face k).right) ui uj gi
      let deltap := biasedDiff (G.rc (G.face k).left) (G.rc (G.face k).right) ui uj gj
      (musclL ui uj deltam (vanAlbada deltam (uj - ui)), some (musclR ui uj deltap (vanAlbada deltap (uj - ui))))

/-! ### Which side a cell writes -/

/-- Each local face of a cell has a number and a neighbour; the cell is its left cell exactly if the neighbour has the larger number. -/
theorem Ok.cface_spec (h : G.Ok) {i f : ℕ} (hi : i < G.m.nelem) (hf : f < G.m.nnode i) :
    G.cface i f < G.nface ∧ ∃ j, G.s.esuel i f = some j ∧
      ((i < j ∧ (G.face (G.cface i f)).left = i ∧ (G.face (G.cface i f)).right = j) ∨
       (¬ i < j ∧ (G.face (G.cface i f)).right = i ∧ (G.face (G.cface i f)).left = j)) := by
  have hx : IsFace G.m (i, f) := ⟨hi, hf⟩
  obtain ⟨⟨k, hk⟩, h2⟩ := C71_elemface h.conf h.topo hx
  obtain ⟨F, hF, hon⟩ := (h2 k).1 hk
  have hck : G.cface i f = k := by unfold cface; simp only at hk; rw [hk]; rfl
  have hkl : k < G.nface := (List.getElem?_eq_some_iff.1 hF).1
  have hFk : F = G.face k := by
    have := faceAt_get (faces := G.s.faces) hkl
    rw [hF] at this; exact Option.some.inj this
  obtain ⟨n1, n2⟩ := C71_neighbour h.conf h.topo hx hF hon
  obtain ⟨k1, k2, k3, k4, k5⟩ := h.kind hkl
  rw [hck]
  refine ⟨hkl, ?_⟩
  -- the left cell of an interior face has the smaller number
  have hlt : (G.face k).left < (G.face k).right := by
    by_cases hr : (G.face k).right < G.m.nelem
    · have hin := k4.2 hr
      have hget : G.s.faces[k]? = some (G.face k) := faceAt_get hkl
      have : G.face k ∈ (G.s.faces.drop G.m.nbface).take (ninface G.m (esuel G.m (esup G.m))) := by
        rw [List.mem_iff_getElem?]
        refine ⟨k - G.m.nbface, ?_⟩
        have := hin.1; have := hin.2
        rw [List.getElem?_take_of_lt (by unfold ni at this; omega), List.getElem?_drop, Nat.add_sub_cancel' hin.1]
        exact hget
      obtain ⟨f, g, j, i, hgl, hij, he⟩ := (C27_interior h.conf.lin h.conf.manifold h.conf.bfOk h.topo _).1 this
      rw [he]; exact hij
    · omega
  rcases hon.2 with e | e
  · rw [hFk] at e n1
    exact ⟨_, n1 e, Or.inl ⟨by simp only at e; omega, e, rfl⟩⟩
  · rw [hFk] at e n2
    exact ⟨_, n2 e, Or.inr ⟨by simp only at e; omega, e, rfl⟩⟩

theorem foldl_update {ι κ α : Type*} [DecidableEq κ] (l : List ι) (key : ι → κ) (v : ι → α) (a : κ → α) (k : κ) :
    (∀ x, (∀ i ∈ l, key i = k → v i = x) → (∃ i ∈ l, key i = k) → l.foldl (fun a i => Function.update a (key i) (v i)) a k = x) ∧
    ((∀ i ∈ l, key i ≠ k) → l.foldl (fun a i => Function.update a (key i) (v i)) a k = a k) := by
  induction l using List.reverseRecOn with
  | nil => exact ⟨fun _ _ h => (by obtain ⟨i, hi, _⟩ := h; cases hi), fun _ => rfl⟩
  | append_singleton l i ih =>
    rw [List.foldl_append, List.foldl_cons, List.foldl_nil]
    refine ⟨fun x hx hex => ?_, fun hn => ?_⟩
    · by_cases hi : key i = k
      · rw [← hi, Function.update_self]; exact hx i (by simp) hi
      · rw [Function.update_of_ne (Ne.symm hi)]
        refine ih.1 x (fun j hj => hx j (by simp [hj])) ?_
        obtain ⟨j, hj, hjk⟩ := hex
        rcases List.mem_append.1 hj with hj | hj
        · exact ⟨j, hj, hjk⟩
        · rw [List.mem_singleton] at hj; subst hj; exact absurd hjk hi
    · rw [Function.update_of_ne (Ne.symm (hn i (by simp)))]
      exact ih.2 fun j hj => hn j (by simp [hj])

/-- The cell-wise loop sets the left value of every face from its left cell, the right value of every interior face from its right cell,
and no right value of other faces. -/
theorem cellWrite_spec (h : G.Ok) (val : ℕ → ℕ → ℝ) (a : Bool × ℕ → ℝ) {k : ℕ} (hk : k < G.nface) :
    G.cellWrite val a (true, k) = val (G.face k).left k ∧
    (G.inner k → G.cellWrite val a (false, k) = val (G.face k).right k) ∧
    (¬ G.inner k → G.cellWrite val a (false, k) = a (false, k)) := by
  obtain ⟨k1, k2, k3, k4, k5⟩ := h.kind hk
  unfold cellWrite
  rw [forLt_forLt, pairs_nfael h.conf.lin]
  set l := pairs G.m.nelem G.m.nnode with hl
  let key : ℕ × ℕ → Bool × ℕ := fun x => (decide (x.1 < (G.s.esuel x.1 x.2).getD 0), G.cface x.1 x.2)
  obtain ⟨hloc, hlocr, _⟩ := face_local h.conf h.topo (faceAt_mem (faces := G.s.faces) hk)
  have hmem : ∀ x, x ∈ l ↔ x.1 < G.m.nelem ∧ x.2 < G.m.nnode x.1 := fun x => by rw [hl, mem_pairs]
  have hcf : ∀ i f, i < G.m.nelem → f < G.m.nnode i → edge G.m (i, f) = s((G.face k).n0, (G.face k).n1) →
      ((G.face k).left = i ∨ (G.face k).right = i) → G.cface i f = k := by
    intro i f hi hf he ho
    have := ((C71_elemface h.conf h.topo (x := (i, f)) ⟨hi, hf⟩).2 k).2 ⟨_, faceAt_get hk, he.symm, ho⟩
    unfold cface; simp only at this; rw [this]; rfl
  refine ⟨?_, fun hin => ?_, fun hin => ?_⟩
  · refine (foldl_update l key (fun x => val x.1 (G.cface x.1 x.2)) a (true, k)).1 _ ?_ ?_
    · rintro ⟨i, f⟩ hx he
      obtain ⟨hi, hf⟩ := (hmem _).1 hx
      obtain ⟨_, j, hj, hc⟩ := h.cface_spec hi hf
      simp only [key, hj, Option.getD_some, Prod.mk.injEq, decide_eq_true_eq] at he
      obtain ⟨he1, he2⟩ := he
      rcases hc with ⟨_, hc, _⟩ | ⟨hn, _⟩
      · rw [he2] at hc; simp only [he2, hc]
      · exact absurd he1 hn
    · obtain ⟨f, hf, he⟩ := hloc
      change edge G.m ((G.face k).left, f) = s((G.face k).n0, (G.face k).n1) at he
      refine ⟨((G.face k).left, f), (hmem _).2 ⟨hf.1, hf.2⟩, ?_⟩
      have hck := hcf (G.face k).left f hf.1 hf.2 he (Or.inl rfl)
      obtain ⟨_, j, hj, hc⟩ := h.cface_spec (i := (G.face k).left) (f := f) hf.1 hf.2
      rw [hck] at hc
      have hlt : (G.face k).left < j := by
        rcases hc with ⟨h1, _⟩ | ⟨_, h2, _⟩
        · exact h1
        · exact absurd h2.symm k2
      simp only [key, hj, Option.getD_some, hlt, decide_true, hck]
  · refine (foldl_update l key (fun x => val x.1 (G.cface x.1 x.2)) a (false, k)).1 _ ?_ ?_
    · rintro ⟨i, f⟩ hx he
      obtain ⟨hi, hf⟩ := (hmem _).1 hx
      obtain ⟨_, j, hj, hc⟩ := h.cface_spec hi hf
      simp only [key, hj, Option.getD_some, Prod.mk.injEq, decide_eq_false_iff_not] at he
      obtain ⟨he1, he2⟩ := he
      rcases hc with ⟨hn, _⟩ | ⟨_, hc, _⟩
      · exact absurd hn he1
      · rw [he2] at hc; simp only [he2, hc]
    · obtain ⟨f, hf, he⟩ := hlocr (k4.1 hin)
      change edge G.m ((G.face k).right, f) = s((G.face k).n0, (G.face k).n1) at he
      refine ⟨((G.face k).right, f), (hmem _).2 ⟨hf.1, hf.2⟩, ?_⟩
      have hck := hcf (G.face k).right f hf.1 hf.2 he (Or.inr rfl)
      obtain ⟨_, j, hj, hc⟩ := h.cface_spec (i := (G.face k).right) (f := f) hf.1 hf.2
      rw [hck] at hc
      have hlt : ¬ (G.face k).right < j := by
        rcases hc with ⟨_, h2, _⟩ | ⟨h1, _⟩
        · exact absurd h2 k2
        · exact h1
      simp only [key, hj, Option.getD_some, hlt, decide_false, hck]
  · refine (foldl_update l key (fun x => val x.1 (G.cface x.1 x.2)) a (false, k)).2 ?_
    rintro ⟨i, f⟩ hx he
    obtain ⟨hi, hf⟩ := (hmem _).1 hx
    obtain ⟨_, j, hj, hc⟩ := h.cface_spec hi hf
    simp only [key, hj, Option.getD_some, Prod.mk.injEq, decide_eq_false_iff_not] at he
    obtain ⟨he1, he2⟩ := he
    rcases hc with ⟨hn, _⟩ | ⟨_, hc, _⟩
    · exact absurd hn he1
    · rw [he2] at hc
      exact hin (k4.2 (by omega))

/-! ### C48: rows that are read -/

/-- The recorded neighbours of a cell are existing rows exactly if none of its faces is a physical boundary face. -/
theorem nbrs_lt_iff (h : G.Ok) {i : ℕ} (hi : i < G.m.nelem) :
    (∀ j ∈ G.nbrs i, j < G.rows) ↔ ∀ k, k < G.m.nbface → (G.face k).left ≠ i := by
  obtain ⟨hlen, _, _⟩ := C27_ranges h.conf.lin h.conf.bfOk h.topo
  have hlen : G.nface = G.m.nbface + G.ni + G.m.nconnface := hlen
  have hnf : G.m.nfael i = G.m.nnode i := h.conf.lin.nf i hi
  constructor
  · rintro hall k hk rfl
    have hkl : k < G.nface := by omega
    obtain ⟨k1, k2, k3, k4, k5⟩ := h.kind hkl
    obtain ⟨⟨f, hf, he⟩, _⟩ := face_local h.conf h.topo (faceAt_mem (faces := G.s.faces) hkl)
    have hes := (C71_neighbour h.conf h.topo hf (faceAt_get hkl) ⟨he.symm, Or.inl rfl⟩).1 rfl
    have hmem : (G.face k).right ∈ G.nbrs (G.face k).left := by
      unfold nbrs
      rw [List.mem_map]
      refine ⟨f, List.mem_range.2 (by rw [hnf]; exact hf.2), ?_⟩
      change G.s.esuel (G.face k).left f = some (G.face k).right at hes
      rw [hes]; rfl
    have := hall _ hmem
    rw [k3 hk] at this
    unfold rows at this
    omega
  · intro hall j hj
    unfold nbrs at hj
    obtain ⟨f, hf, rfl⟩ := List.mem_map.1 hj
    rw [List.mem_range, hnf] at hf
    obtain ⟨hkl, j, hes, hc⟩ := h.cface_spec hi hf
    rw [hes]
    simp only [Option.getD_some]
    obtain ⟨k1, k2, k3, k4, k5⟩ := h.kind hkl
    unfold rows
    rcases hc with ⟨_, hl, hr⟩ | ⟨h1, _, _⟩
    · by_cases hb : G.cface i f < G.m.nbface
      · exact absurd hl (hall _ hb)
      · have := k5 (by omega); omega
    · omega

/-- C48: the Barth–Jespersen and Venkatakrishnan limiters read only existing rows exactly on meshes without physical
boundary faces. -/
theorem C48_exact (h : G.Ok) (K : ℝ) (u : ℕ → ℝ) (g : ℕ → Fin 2 → ℝ) (gr : ℕ → Fin 2 → ℝ) (a : Bool × ℕ → ℝ) :
    ((G.barthJespersen u g gr a).isSome ↔ G.m.nbface = 0) ∧ ((G.venkatakrishnan K u g gr a).isSome ↔ G.m.nbface = 0) := by
  obtain ⟨hlen, _, _⟩ := C27_ranges h.conf.lin h.conf.bfOk h.topo
  have hlen : G.nface = G.m.nbface + G.ni + G.m.nconnface := hlen
  have key : (∀ i < G.m.nelem, (duRange G.rows u i (G.nbrs i)).isSome) ↔ G.m.nbface = 0 := by
    constructor
    · intro hall
      by_contra hne
      have hk : 0 < G.nface := by omega
      have hl := (h.kind hk).1
      have := hall _ hl
      rw [duRange_isSome_iff (by unfold rows; omega), nbrs_lt_iff h hl] at this
      exact this 0 (by omega) rfl
    · intro h0 i hi
      rw [duRange_isSome_iff (by unfold rows; omega), nbrs_lt_iff h hi]
      intro k hk; omega
  unfold barthJespersen venkatakrishnan
  constructor
  · by_cases hc : ∀ i < G.m.nelem, (duRange G.rows u i (G.nbrs i)).isSome
    · simp only [if_pos hc, Option.isSome_some, true_iff]; exact key.1 hc
    · simp only [if_neg hc, Option.isSome_none, Bool.false_eq_true, false_iff]; exact fun h0 => hc (key.2 h0)
  · by_cases hc : ∀ i < G.m.nelem, (duRange G.rows u i (G.nbrs i)).isSome
    · simp only [if_pos hc, Option.isSome_some, true_iff]; exact key.1 hc
    · simp only [if_neg hc, Option.isSome_none, Bool.false_eq_true, false_iff]; exact fun h0 => hc (key.2 h0)

/-- C48 refuted: on the mesh of a quadrilateral and a triangle both limiters read beyond the allocated rows. -/
theorem C48_refuted (K : ℝ) (u : ℕ → ℝ) (g gr : ℕ → Fin 2 → ℝ) (a : Bool × ℕ → ℝ) :
    exGeo.barthJespersen u g gr a = none ∧ exGeo.venkatakrishnan K u g gr a = none := by
  obtain ⟨h1, h2⟩ := C48_exact exGeo_ok K u g gr a
  have h0 : ¬ exGeo.m.nbface = 0 := by show ¬ 4 = 0; decide
  exact ⟨Option.not_isSome_iff_eq_none.1 fun h => h0 (h1.1 h), Option.not_isSome_iff_eq_none.1 fun h => h0 (h2.1 h)⟩

/-- C48 for the other schemes: WENO, linear and MUSCL reconstruction read only existing rows on every conforming mesh. -/
theorem C48_partial (h : G.Ok) {lam : ℝ} (hl : 0 < lam) (u ug : ℕ → ℝ) (g gr : ℕ → Fin 2 → ℝ) (a : Bool × ℕ → ℝ) :
    (G.weno lam u g gr a).isSome ∧ ∀ k, k < G.nface → (G.linearFace u g gr k).isSome ∧ (G.musclFace u ug g k).isSome := by
  constructor
  · have : ∀ i < G.m.nelem, (wenoGrad lam G.rows g i (G.nbrs i)).isSome := fun i hi => by
      obtain ⟨v, hv, _⟩ := C49_convex hl G.rows g (i := i) (by unfold rows; omega) (G.nbrs i)
      rw [hv]; rfl
    unfold weno
    rw [if_pos this]; rfl
  · intro k hk
    obtain ⟨k1, k2, k3, k4, k5⟩ := h.kind hk
    have hL : (G.face k).left < G.rows := by unfold rows; omega
    unfold linearFace musclFace
    constructor
    · by_cases hin : G.inner k
      · have hR : (G.face k).right < G.rows := by have := k4.1 hin; unfold rows; omega
        simp [rd, hL, hR, hin]
      · simp [rd, hL, hin]
    · by_cases hb : k < G.m.nbface
      · simp [rd, hL, hb]
      · have hR : (G.face k).right < G.rows := k5 (by omega)
        simp [rd, hL, hR, hb]

/-! ### C47: Barth–Jespersen -/

/-- C47: wherever Barth–Jespersen reconstruction is defined, each value written for a cell at one of its faces lies between the
smallest and the largest value of the cell and its neighbours. -/
theorem C47_barthJespersen (h : G.Ok) {u : ℕ → ℝ} {g gr : ℕ → Fin 2 → ℝ} {a b : Bool × ℕ → ℝ} (hb : G.barthJespersen u g gr a = some b)
    {k : ℕ} (hk : k < G.nface) :
    ((∃ j ∈ (G.face k).left :: G.nbrs (G.face k).left, u j ≤ b (true, k)) ∧ ∃ j ∈ (G.face k).left :: G.nbrs (G.face k).left, b (true, k) ≤ u j) ∧
    (G.inner k → (∃ j ∈ (G.face k).right :: G.nbrs (G.face k).right, u j ≤ b (false, k)) ∧
      ∃ j ∈ (G.face k).right :: G.nbrs (G.face k).right, b (false, k) ≤ u j) := by
  unfold barthJespersen at hb
  split_ifs at hb with hall
  obtain ⟨k1, k2, k3, k4, k5⟩ := h.kind hk
  obtain ⟨w1, w2, _⟩ := cellWrite_spec h (fun i k =>
      let p := (duRange G.rows u i (G.nbrs i)).getD (0, 0)
      linExt (u i) (g i) (bjLim p.1 p.2 (G.diffs u g gr i)) (gr k) (G.rc i)) a hk
  rw [Option.some.inj hb] at w1 w2
  have key : ∀ i, i < G.m.nelem → (∃ f, f < G.m.nnode i ∧ G.cface i f = k) → ∀ x,
      x = (let p := (duRange G.rows u i (G.nbrs i)).getD (0, 0); linExt (u i) (g i) (bjLim p.1 p.2 (G.diffs u g gr i)) (gr k) (G.rc i)) →
      (∃ j ∈ i :: G.nbrs i, u j ≤ x) ∧ ∃ j ∈ i :: G.nbrs i, x ≤ u j := by
    rintro i hi ⟨f, hf, hck⟩ x hx
    obtain ⟨p, hp⟩ := Option.isSome_iff_exists.1 (hall i hi)
    rw [hp] at hx
    simp only [Option.getD_some] at hx
    obtain ⟨p1, p2, p3, p4, p5⟩ := duRange_spec hp
    obtain ⟨l1, l2, l3⟩ := bjLim_spec p1 p2 (G.diffs u g gr i)
    have hd : linExt (u i) (g i) 1 (gr k) (G.rc i) - u i ∈ G.diffs u g gr i := by
      unfold diffs
      rw [List.mem_map]
      exact ⟨f, List.mem_range.2 (by rw [h.conf.lin.nf i hi]; exact hf), by rw [hck]⟩
    obtain ⟨b1, b2⟩ := l3 _ hd
    rw [linExt_lim] at hx
    constructor
    · rcases p4 with p4 | ⟨j, hj, p4⟩
      · exact ⟨i, by simp, by linarith⟩
      · exact ⟨j, by simp [hj], by linarith⟩
    · rcases p5 with p5 | ⟨j, hj, p5⟩
      · exact ⟨i, by simp, by linarith⟩
      · exact ⟨j, by simp [hj], by linarith⟩
  have hloc : ∀ i, ((G.face k).left = i ∨ (G.face k).right = i) → i < G.m.nelem → ∃ f, f < G.m.nnode i ∧ G.cface i f = k := by
    intro i ho hi
    obtain ⟨q1, q2, _⟩ := face_local h.conf h.topo (faceAt_mem (faces := G.s.faces) hk)
    have : ∃ f, IsFace G.m (i, f) ∧ edge G.m (i, f) = s((G.face k).n0, (G.face k).n1) := by
      rcases ho with rfl | rfl
      · exact q1
      · exact q2 hi
    obtain ⟨f, hf, he⟩ := this
    refine ⟨f, hf.2, ?_⟩
    have := ((C71_elemface h.conf h.topo (x := (i, f)) hf).2 k).2 ⟨_, faceAt_get hk, he.symm, ho⟩
    unfold cface; simp only at this; rw [this]; rfl
  refine ⟨key _ k1 (hloc _ (Or.inl rfl) k1) _ w1, fun hin => key _ (k4.1 hin) (hloc _ (Or.inr rfl) (k4.1 hin)) _ (w2 hin)⟩

/-! ### C46: exactness -/

/-- A linear function. -/
def lin (c : ℝ) (s x : Fin 2 → ℝ) : ℝ := c + (s 0 * x 0 + s 1 * x 1)

/-- C46: with exact gradients, unlimited linear reconstruction of a linear field returns its value at the given point of
every face, on both sides where both are computed. -/
theorem C46_linear (h : G.Ok) (c : ℝ) (s : Fin 2 → ℝ) {u : ℕ → ℝ} {g gr : ℕ → Fin 2 → ℝ}
    (hu : ∀ i, i < G.rows → u i = lin c s (G.rc i)) (hg : ∀ i, i < G.m.nelem → g i = s) {k : ℕ} (hk : k < G.nface) :
    G.linearFace u g gr k = some (lin c s (gr k), if G.inner k then some (lin c s (gr k)) else none) := by
  obtain ⟨k1, k2, k3, k4, k5⟩ := h.kind hk
  have hL : (G.face k).left < G.rows := by unfold rows; omega
  have e : ∀ i, i < G.m.nelem → linExt (u i) (g i) 1 (gr k) (G.rc i) = lin c s (gr k) := fun i hi => by
    rw [hu i (by unfold rows; omega), hg i hi]; unfold linExt lin; ring
  unfold linearFace
  by_cases hin : G.inner k
  · have hR : (G.face k).right < G.rows := by have := k4.1 hin; unfold rows; omega
    simp only [rd, hL, hR, hin, if_true, Option.bind_some, Option.map_some, e _ k1, e _ (k4.1 hin)]
  · simp only [rd, hL, hin, if_true, if_false, Option.bind_some, e _ k1]

/-- C46: with exact gradients MUSCL reconstruction of a linear field returns its value at the midpoint of the two
centres, on both sides. -/
theorem C46_muscl (h : G.Ok) (c : ℝ) (s : Fin 2 → ℝ) {u ug : ℕ → ℝ} {g : ℕ → Fin 2 → ℝ}
    (hu : ∀ i, i < G.rows → u i = lin c s (G.rc i)) (hug : ∀ k, k < G.m.nbface → ug k = lin c s (G.rcbp k))
    (hg : ∀ i, i < G.rows → g i = s) {k : ℕ} (hk : k < G.nface) :
    G.musclFace u ug g k = some (lin c s (fun d => (G.xl k d + G.xr k d) / 2),
      if k < G.m.nbface then none else some (lin c s (fun d => (G.xl k d + G.xr k d) / 2))) := by
  obtain ⟨k1, k2, k3, k4, k5⟩ := h.kind hk
  have hL : (G.face k).left < G.rows := by unfold rows; omega
  have hva : ∀ D : ℝ, vanAlbada D D = 1 := fun D => by
    have hd : 0 < D * D + D * D + 1e-8 := by nlinarith [mul_self_nonneg D]
    have e : (2 * D * D + 1e-8) / (D * D + D * D + 1e-8) = 1 := by rw [div_eq_one_iff_eq hd.ne']; ring
    unfold vanAlbada; simp only [e]; norm_num
  have hbd : ∀ x y : Fin 2 → ℝ, biasedDiff x y (lin c s x) (lin c s y) s = lin c s y - lin c s x := fun x y => by
    unfold biasedDiff lin; ring
  unfold musclFace
  by_cases hb : k < G.m.nbface
  · have hxr : G.xr k = G.rcbp k := by unfold xr; rw [if_pos hb]
    simp only [rd, hL, hb, if_true, Option.bind_some, hu _ hL, hg _ hL, hug k hb, hbd, hva, hxr]
    unfold musclL lin xl
    congr 2
    ring
  · have hR : (G.face k).right < G.rows := k5 (by omega)
    have hxr : G.xr k = G.rc (G.face k).right := by unfold xr; rw [if_neg hb]
    simp only [rd, hL, hR, hb, if_true, if_false, Option.bind_some, Option.map_some, hu _ hL, hg _ hL, hu _ hR, hg _ hR, hbd, hva, hxr]
    unfold musclL musclR lin xl
    congr 2
    · ring
    · congr 1; ring

/-- C46: WENO reconstruction of a linear field from exact gradients is exact at the given points of all faces. -/
theorem C46_weno (h : G.Ok) {lam : ℝ} (hl : 0 < lam) (c : ℝ) (s : Fin 2 → ℝ) {u : ℕ → ℝ} {g gr : ℕ → Fin 2 → ℝ}
    (hu : ∀ i, i < G.rows → u i = lin c s (G.rc i)) (hg : ∀ i, i < G.rows → g i = s) (a : Bool × ℕ → ℝ) :
    ∃ b, G.weno lam u g gr a = some b ∧ ∀ k, k < G.nface → b (true, k) = lin c s (gr k) ∧ (G.inner k → b (false, k) = lin c s (gr k)) := by
  have hw : ∀ i, i < G.m.nelem → wenoGrad lam G.rows g i (G.nbrs i) = some s := fun i hi =>
    C49_linear hl (by unfold rows; omega) fun j _ hj => hg j hj
  have e : ∀ i, i < G.m.nelem → ∀ k, linExt (u i) ((wenoGrad lam G.rows g i (G.nbrs i)).getD 0) 1 (gr k) (G.rc i) = lin c s (gr k) := fun i hi k => by
    rw [hw i hi, hu i (by unfold rows; omega)]; unfold linExt lin; simp only [Option.getD_some]; ring
  refine ⟨_, by unfold weno; rw [if_pos (fun i hi => by rw [hw i hi]; rfl)], fun k hk => ?_⟩
  obtain ⟨k1, k2, k3, k4, k5⟩ := h.kind hk
  obtain ⟨w1, w2, _⟩ := cellWrite_spec h (fun i k => linExt (u i) ((wenoGrad lam G.rows g i (G.nbrs i)).getD 0) 1 (gr k) (G.rc i)) a hk
  exact ⟨by rw [w1, e _ k1], fun hin => by rw [w2 hin, e _ (k4.1 hin)]⟩

/-- C46: with vanishing gradients (as computed for constant fields) the limited schemes return the cell value at every face,
wherever they are defined. -/
theorem C46_constant_limited (h : G.Ok) (K : ℝ) {u : ℕ → ℝ} {g gr : ℕ → Fin 2 → ℝ} (hg : ∀ i, i < G.m.nelem → g i = 0)
    {a b : Bool × ℕ → ℝ} (hb : G.barthJespersen u g gr a = some b ∨ G.venkatakrishnan K u g gr a = some b) {k : ℕ} (hk : k < G.nface) :
    b (true, k) = u (G.face k).left ∧ (G.inner k → b (false, k) = u (G.face k).right) := by
  obtain ⟨k1, k2, k3, k4, k5⟩ := h.kind hk
  have e : ∀ i, i < G.m.nelem → ∀ lim k, linExt (u i) (g i) lim (gr k) (G.rc i) = u i := fun i hi lim k => by
    rw [hg i hi]; simp [linExt]
  rcases hb with hb | hb
  · unfold barthJespersen at hb
    split_ifs at hb
    rw [← Option.some.inj hb]
    obtain ⟨w1, w2, _⟩ := cellWrite_spec h (fun i k =>
      let p := (duRange G.rows u i (G.nbrs i)).getD (0, 0)
      linExt (u i) (g i) (bjLim p.1 p.2 (G.diffs u g gr i)) (gr k) (G.rc i)) a hk
    exact ⟨by rw [w1]; exact e _ k1 _ _, fun hin => by rw [w2 hin]; exact e _ (k4.1 hin) _ _⟩
  · unfold venkatakrishnan at hb
    split_ifs at hb
    rw [← Option.some.inj hb]
    obtain ⟨w1, w2, _⟩ := cellWrite_spec h (fun i k =>
      let p := (duRange G.rows u i (G.nbrs i)).getD (0, 0)
      linExt (u i) (g i) (venkLim ((K * G.clength i) ^ 3) p.1 p.2 (G.diffs u g gr i)) (gr k) (G.rc i)) a hk
    exact ⟨by rw [w1]; exact e _ k1 _ _, fun hin => by rw [w2 hin]; exact e _ (k4.1 hin) _ _⟩

/-- C46, gradients and reconstruction together: for the linear field 3 + 2x - y on the example mesh, with least-squares gradients in the
quadrilateral, the left value of its first boundary face is the value at the face midpoint (1/2, 0). -/
example : (exGeo.linearFace (fun i => lin 3 ![2, -1] (exGeo.rc i)) (fun _ => ![2, -1]) exGeo.mid 0) = some (4, none) := by
  rw [C46_linear exGeo_ok 3 ![2, -1] (fun _ _ => rfl) (fun _ _ => rfl) (by rw [exGeo_face.1]; decide)]
  obtain ⟨_, f0, _⟩ := exGeo_face
  obtain ⟨c0, c1, _⟩ := exGeo_coords
  have hin : ¬ exGeo.inner 0 := by
    intro h; have := h.1; have h4 : exGeo.m.nbface = 4 := rfl; omega
  rw [if_neg hin]
  congr 2
  simp only [mid, f0, c0, c1]
  norm_num [lin, fMid]

/-! ### Example without physical boundary: the square cut by its diagonals, each of whose sides is an interface -/

/-- `cross` as a subdomain inside a larger mesh: four connectivity faces, no physical boundary. -/
noncomputable def isle : Mesh :=
  { cross with
    nbface := 0
    nconnface := 4
    connface := fun i j => if j = 0 then i else if j = 1 then 0 else if j = 2 then 1 else 20 + i }

theorem isle_hosts : bfaceHosts isle (esup isle) = .ok [] := by decide +kernel

theorem isle_topological : ∃ s, topological isle = .ok s ∧ s.faces = [⟨0, 1, 1, 4⟩, ⟨0, 3, 4, 0⟩, ⟨1, 2, 2, 4⟩, ⟨2, 3, 3, 4⟩,
    ⟨0, 4, 0, 1⟩, ⟨1, 5, 1, 2⟩, ⟨2, 6, 2, 3⟩, ⟨3, 7, 3, 0⟩] := by
  rw [topological, faceConnectivity, isle_hosts]
  exact ⟨_, rfl, by decide +kernel⟩

theorem isle_check : Check isle := by decide +kernel

noncomputable def isleGeo : Geo where
  m := isle
  s := isle_topological.choose
  rc := fun i d => if i = 0 then (if d = 0 then 1 / 2 else 1 / 6) else if i = 1 then (if d = 0 then 5 / 6 else 1 / 2)
    else if i = 2 then (if d = 0 then 1 / 2 else 5 / 6) else if i = 3 then (if d = 0 then 1 / 6 else 1 / 2) else (i : ℝ)
  rcbp := fun _ => 0
  ar := fun _ => 1 / 4

theorem isleGeo_ok : isleGeo.Ok := ⟨isle_check.conforming, cross_nozero, isle_topological.choose_spec.1⟩

/-- Both limiters are defined there, and Barth–Jespersen satisfies its bounds for any data. -/
example (u : ℕ → ℝ) (g gr : ℕ → Fin 2 → ℝ) (a : Bool × ℕ → ℝ) : ∃ b, isleGeo.barthJespersen u g gr a = some b ∧
    ∃ j ∈ 0 :: isleGeo.nbrs 0, u j ≤ b (true, 0) := by
  obtain ⟨b, hb⟩ := Option.isSome_iff_exists.1 ((C48_exact isleGeo_ok 1 u g gr a).1.2 rfl)
  have hf : isleGeo.s.faces = _ := isle_topological.choose_spec.2
  have hn : isleGeo.nface = 8 := by unfold nface; rw [hf]; rfl
  have h0 : (isleGeo.face 0).left = 0 := by unfold face; rw [hf]; rfl
  have := (C47_barthJespersen isleGeo_ok hb (k := 0) (by omega)).1.1
  rw [h0] at this
  exact ⟨b, hb, this⟩

end Geo
end FV
end FVENS
