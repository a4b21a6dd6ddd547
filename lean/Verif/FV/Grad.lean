import Verif.FV.Threads
import Verif.Mesh.Geom
import Mathlib.LinearAlgebra.Matrix.NonsingularInverse
import Mathlib.LinearAlgebra.Matrix.ToLinearEquiv
import Mathlib.Data.Matrix.Mul

/-!
# Gradient schemes (C44, C45)

`GreenGaussGradients` and `WeightedLeastSquaresGradients`, src/spatial/agradientschemes.cpp. The three consecutive loops over physical
boundary, interior and connectivity faces run over consecutive ranges of the face list (C27); the sequential model is one
loop with a case distinction on the range. `nv` is the number of variables (template parameter `nvars`).
-/

namespace FVENS
namespace FV

open Msh Finset

variable {A : Type*} [AddCommGroup A]

/-- Accumulation of contributions `cl` to the left and, for interior faces (numbers `nb … nb+ni-1`), `cr` to the right cell,
the loops at src/spatial/agradientschemes.cpp:83-212, 232-306, 336-421. -/
def accum (nb ni : ℕ) (faces : List Face) (cl cr : ℕ → A) (r : ℕ → A) : ℕ → A :=
  forLt faces.length r fun k r =>
    let r1 := upd r (faceAt faces k).left (r (faceAt faces k).left + cl k)
    if nb ≤ k ∧ k < nb + ni then upd r1 (faceAt faces k).right (r1 (faceAt faces k).right + cr k) else r1

theorem upd_add (r : ℕ → A) (a : ℕ) (x : A) (i : ℕ) : upd r a (r a + x) i = r i + if a = i then x else 0 := by
  unfold upd
  by_cases h : i = a
  · subst h; simp
  · simp [h, Ne.symm h]

theorem accum_eq (nb ni : ℕ) (faces : List Face) (cl cr : ℕ → A) (r : ℕ → A) (i : ℕ) :
    accum nb ni faces cl cr r i = r i + ∑ k ∈ range faces.length, ((if (faceAt faces k).left = i then cl k else 0) +
      if (nb ≤ k ∧ k < nb + ni) ∧ (faceAt faces k).right = i then cr k else 0) := by
  unfold accum
  generalize faces.length = n
  induction n with
  | zero => simp [forLt_zero]
  | succ n ih =>
    rw [forLt_succ, sum_range_succ]
    by_cases h : nb ≤ n ∧ n < nb + ni
    · simp only [h, if_true, and_self, true_and]
      rw [upd_add, upd_add, ih]; abel
    · simp only [h, if_false, false_and, add_zero]
      rw [upd_add, ih]; abel

/-- Inverse distance, src/spatial/agradientschemes.cpp:101-108. -/
noncomputable def invDist (x mid : Fin 2 → ℝ) : ℝ := 1 / √(0 + (mid 0 - x 0) * (mid 0 - x 0) + (mid 1 - x 1) * (mid 1 - x 1))

/-- Face midpoint, src/spatial/agradientschemes.cpp:89-99. -/
noncomputable def fMid (a b : Fin 2 → ℝ) : Fin 2 → ℝ := fun d => (0 + a d + b d) / 2

/-- Geometry used by the gradient schemes: mesh with face list, centres of cells and connectivity ghosts (`rc`), of boundary
ghosts (`rcbp`), cell areas. -/
structure Geo where
  m : Mesh
  s : FState
  rc : ℕ → Fin 2 → ℝ
  rcbp : ℕ → Fin 2 → ℝ
  ar : ℕ → ℝ

namespace Geo
variable (G : Geo)

def face (k : ℕ) : Face := faceAt G.s.faces k
def nface : ℕ := G.s.faces.length
def ni : ℕ := ninface G.m (esuel G.m (esup G.m))
/-- Range of interior faces, `gSubDomFaceStart … gSubDomFaceEnd`. -/
def inner (k : ℕ) : Prop := G.m.nbface ≤ k ∧ k < G.m.nbface + G.ni
instance (k : ℕ) : Decidable (G.inner k) := by unfold inner; infer_instance

/-- Centre on the left and right of a face: `rcbpm(ibpface)` on the right of physical boundary faces. -/
def xl (k : ℕ) : Fin 2 → ℝ := G.rc (G.face k).left
def xr (k : ℕ) : Fin 2 → ℝ := if k < G.m.nbface then G.rcbp k else G.rc (G.face k).right
noncomputable def mid (k : ℕ) : Fin 2 → ℝ := fMid (G.m.coords (G.face k).n0) (G.m.coords (G.face k).n1)
/-- `gfacemetric(iface,idim)`. -/
noncomputable def nrm (k : ℕ) : Fin 2 → ℝ := fNrm (G.m.coords (G.face k).n0) (G.m.coords (G.face k).n1)
/-- `gfacemetric(iface,2)`. -/
noncomputable def len (k : ℕ) : ℝ := fLen (G.m.coords (G.face k).n0) (G.m.coords (G.face k).n1)
/-- Value on the right of a face: boundary ghost state or cell/connectivity ghost value. -/
def ur {V : Type*} (u ug : ℕ → V) (k : ℕ) : V := if k < G.m.nbface then ug k else u (G.face k).right

variable {nv : ℕ}

/-- Face value times length `ut`, src/spatial/agradientschemes.cpp:112-113, 156, 204. -/
noncomputable def ut (u ug : ℕ → Fin nv → ℝ) (k : ℕ) (j : Fin nv) : ℝ :=
  (u (G.face k).left j * invDist (G.xl k) (G.mid k) + G.ur u ug k j * invDist (G.xr k) (G.mid k)) /
    (invDist (G.xl k) (G.mid k) + invDist (G.xr k) (G.mid k)) * G.len k

/-- Contributions to the left and right cell, src/spatial/agradientschemes.cpp:115-116, 165, 171, 208. -/
noncomputable def ggL (u ug : ℕ → Fin nv → ℝ) (k : ℕ) : Fin 2 → Fin nv → ℝ := fun d j =>
  (G.ut u ug k j * G.nrm k d) * (1 / G.ar (G.face k).left)
noncomputable def ggR (u ug : ℕ → Fin nv → ℝ) (k : ℕ) : Fin 2 → Fin nv → ℝ := fun d j =>
  - ((G.ut u ug k j * G.nrm k d) * (1 / G.ar (G.face k).right))

/-- `GreenGaussGradients::compute_gradients`, src/spatial/agradientschemes.cpp:61-214, run by one thread. -/
noncomputable def greenGauss (u ug : ℕ → Fin nv → ℝ) : ℕ → Fin 2 → Fin nv → ℝ :=
  accum G.m.nbface G.ni G.s.faces (G.ggL u ug) (G.ggR u ug) fun _ _ _ => 0

/-- `dr`, src/spatial/agradientschemes.cpp:242, 271, 301. -/
def dr (k : ℕ) : Fin 2 → ℝ := fun d => G.xl k d - G.xr k d
/-- `w2`, src/spatial/agradientschemes.cpp:238-244. -/
noncomputable def w2 (k : ℕ) : ℝ := 1 / (0 + G.dr k 0 * G.dr k 0 + G.dr k 1 * G.dr k 1)

/-- Least-squares matrix before inversion, src/spatial/agradientschemes.cpp:222-310. -/
noncomputable def lsMat : ℕ → Matrix (Fin 2) (Fin 2) ℝ :=
  let c := fun k => Matrix.of fun a b => G.w2 k * G.dr k a * G.dr k b
  accum G.m.nbface G.ni G.s.faces c c fun _ => 0

/-- Least-squares right-hand side, src/spatial/agradientschemes.cpp:330-421. -/
noncomputable def lsRhs (u ug : ℕ → Fin nv → ℝ) : ℕ → Matrix (Fin 2) (Fin nv) ℝ :=
  let c := fun k => Matrix.of fun a j => G.w2 k * G.dr k a * (u (G.face k).left j - G.ur u ug k j)
  accum G.m.nbface G.ni G.s.faces c c fun _ => 0

/-- `WeightedLeastSquaresGradients`, src/spatial/agradientschemes.cpp:312-316, 423-433. For singular matrices the code divides by zero;
`⁻¹` is zero there. -/
noncomputable def wls (u ug : ℕ → Fin nv → ℝ) (i : ℕ) : Matrix (Fin 2) (Fin nv) ℝ := (G.lsMat i)⁻¹ * G.lsRhs u ug i

/-- A pre-processed conforming mesh without faces of zero length. -/
structure Ok : Prop where
  conf : Conforming G.m
  nz : NoZeroFace G.m
  topo : topological G.m = .ok G.s

/-- No centre lies on a face midpoint (no division by zero). -/
def OffMid : Prop := ∀ k, k < G.nface → G.xl k ≠ G.mid k ∧ G.xr k ≠ G.mid k

variable {G}

/-- Kinds of faces. -/
theorem Ok.kind (h : G.Ok) {k : ℕ} (hk : k < G.nface) :
    (G.face k).left < G.m.nelem ∧ (G.face k).left ≠ (G.face k).right ∧
    (k < G.m.nbface → (G.face k).right = G.m.nelem + G.m.nconnface + k) ∧
    (G.inner k ↔ (G.face k).right < G.m.nelem) ∧
    (G.m.nbface ≤ k → (G.face k).right < G.m.nelem + G.m.nconnface) := by
  obtain ⟨h1, h2, h3⟩ := C27_ranges h.conf.lin h.conf.bfOk h.topo
  have hget : G.s.faces[k]? = some (G.face k) := faceAt_get hk
  have hmem := faceAt_mem (faces := G.s.faces) hk
  have hin : G.inner k → (G.face k).right < G.m.nelem := by
    intro hi
    have : G.face k ∈ (G.s.faces.drop G.m.nbface).take (ninface G.m (esuel G.m (esup G.m))) := by
      rw [List.mem_iff_getElem?]
      refine ⟨k - G.m.nbface, ?_⟩
      have := hi.1; have := hi.2
      rw [List.getElem?_take_of_lt (by unfold ni at this; omega), List.getElem?_drop, Nat.add_sub_cancel' hi.1]
      exact hget
    obtain ⟨f, g, j, i, hgl, hij, he⟩ := (C27_interior h.conf.lin h.conf.manifold h.conf.bfOk h.topo _).1 this
    rw [he]; exact hgl.2.1.1
  have hb : k < G.m.nbface → (G.face k).right = G.m.nelem + G.m.nconnface + k := fun hb => by
    obtain ⟨e, _, he⟩ := h2 k hb
    rw [hget] at he; rw [Option.some.inj he]
  have hcn : G.m.nbface + G.ni ≤ k → ∃ ic, ic < G.m.nconnface ∧ (G.face k).right = G.m.nelem + ic := fun hge => by
    have hlt : k - (G.m.nbface + G.ni) < G.m.nconnface := by unfold nface at hk; rw [h1] at hk; unfold ni at *; omega
    have := h3 _ hlt
    unfold ni at *
    rw [Nat.add_sub_cancel' hge, hget] at this
    exact ⟨_, hlt, by rw [Option.some.inj this]⟩
  refine ⟨face_left_lt h.conf.lin h.conf.bfOk h.conf.cf h.topo hmem, (face_local h.conf h.topo hmem).2.2, hb,
    ⟨hin, fun hr => ?_⟩, fun hge => ?_⟩
  · by_contra hni
    unfold inner at hni
    by_cases h0 : k < G.m.nbface
    · rw [hb h0] at hr; omega
    · obtain ⟨ic, _, e⟩ := hcn (by omega)
      rw [e] at hr; omega
  · by_cases hi : k < G.m.nbface + G.ni
    · have := hin ⟨hge, hi⟩; omega
    · obtain ⟨ic, h4, e⟩ := hcn (by omega)
      rw [e]; omega

/-- The face touches the cell. -/
def touches (G : Geo) (i k : ℕ) : Prop := (G.face k).left = i ∨ (G.face k).right = i
instance (i k : ℕ) : Decidable (G.touches i k) := by unfold touches; infer_instance

/-- Sign of the face seen from the cell. -/
def sgn (G : Geo) (i k : ℕ) : ℝ := if (G.face k).left = i then 1 else -1

theorem accum_touch (h : G.Ok) (cl cr : ℕ → A) {i : ℕ} (hi : i < G.m.nelem) :
    accum G.m.nbface G.ni G.s.faces cl cr (fun _ => 0) i =
      ∑ k ∈ (range G.nface).filter (G.touches i), if (G.face k).left = i then cl k else cr k := by
  rw [accum_eq, zero_add, sum_filter]
  refine sum_congr rfl fun k hk => ?_
  obtain ⟨h1, h2, h3, h4, h5⟩ := h.kind (mem_range.1 hk)
  change (if (G.face k).left = i then cl k else 0) + (if G.inner k ∧ (G.face k).right = i then cr k else 0) = _
  unfold touches
  by_cases hl : (G.face k).left = i
  · have : (G.face k).right ≠ i := fun e => h2 (hl.trans e.symm)
    simp [hl, this]
  · by_cases hr : (G.face k).right = i
    · have : G.inner k := h4.2 (by omega)
      simp [hl, hr, this]
    · simp [hl, hr]

theorem invDist_pos {x mid : Fin 2 → ℝ} (h : x ≠ mid) : 0 < invDist x mid := by
  unfold invDist
  have : 0 < 0 + (mid 0 - x 0) * (mid 0 - x 0) + (mid 1 - x 1) * (mid 1 - x 1) := by
    by_contra hn
    apply h
    have h0 : mid 0 - x 0 = 0 := by nlinarith [mul_self_nonneg (mid 0 - x 0), mul_self_nonneg (mid 1 - x 1)]
    have h1 : mid 1 - x 1 = 0 := by nlinarith [mul_self_nonneg (mid 0 - x 0), mul_self_nonneg (mid 1 - x 1)]
    funext d
    fin_cases d
    · show x 0 = mid 0; linarith
    · show x 1 = mid 1; linarith
  positivity

/-- The face value is a convex combination of the two cell values. -/
theorem ut_convex (ho : G.OffMid) {k : ℕ} (hk : k < G.nface) (u ug : ℕ → Fin nv → ℝ) (j : Fin nv) :
    ∃ t, 0 < t ∧ t < 1 ∧ G.ut u ug k j = ((1 - t) * u (G.face k).left j + t * G.ur u ug k j) * G.len k := by
  have h1 := invDist_pos (ho k hk).1
  have h2 := invDist_pos (ho k hk).2
  refine ⟨invDist (G.xr k) (G.mid k) / (invDist (G.xl k) (G.mid k) + invDist (G.xr k) (G.mid k)), by positivity, ?_, ?_⟩
  · rw [div_lt_one (by positivity)]; linarith
  · unfold ut; field_simp; ring

theorem closed_touch (h : G.Ok) {i : ℕ} (hi : i < G.m.nelem) (d : Fin 2) :
    ∑ k ∈ (range G.nface).filter (G.touches i), G.sgn i k * (G.len k * G.nrm k d) = 0 := by
  have hcl := C22_closed h.conf h.nz h.topo hi d
  have hsum : (G.s.faces.map (signed (nlen G.m d) i)).sum = ∑ k ∈ range G.nface, signed (nlen G.m d) i (G.face k) := by
    unfold nface face faceAt
    generalize G.s.faces = L
    induction L using List.reverseRecOn with
    | nil => simp
    | append_singleton L F ih =>
      rw [List.map_append, List.sum_append, ih, List.length_append, List.length_singleton, sum_range_succ]
      congr 1
      · exact sum_congr rfl fun k hk => by simp [List.getD, List.getElem?_append_left (mem_range.1 hk)]
      · simp [List.getD]
  rw [hsum] at hcl
  rw [← hcl, sum_filter]
  refine sum_congr rfl fun k hk => ?_
  obtain ⟨_, h2, _⟩ := h.kind (mem_range.1 hk)
  unfold touches signed sgn nlen len nrm
  by_cases hl : (G.face k).left = i
  · have : (G.face k).right ≠ i := fun e => h2 (hl.trans e.symm)
    simp [hl, this, mul_comm]
  · by_cases hr : (G.face k).right = i
    · simp [hl, hr, mul_comm]
    · simp [hl, hr]

/-- C45: Green–Gauss gradients of constant fields vanish in every cell. -/
theorem C45_greenGauss_constant (h : G.Ok) (ho : G.OffMid) (c : Fin nv → ℝ) {u ug : ℕ → Fin nv → ℝ}
    (hu : ∀ i, i < G.m.nelem + G.m.nconnface → u i = c) (hug : ∀ k, k < G.m.nbface → ug k = c)
    {i : ℕ} (hi : i < G.m.nelem) : G.greenGauss u ug i = 0 := by
  unfold greenGauss
  have := accum_touch h (G.ggL u ug) (G.ggR u ug) hi
  rw [show (fun (_ : ℕ) (_ : Fin 2) (_ : Fin nv) => (0 : ℝ)) = fun _ => 0 from rfl, this]
  funext d j
  rw [Finset.sum_apply, Finset.sum_apply]
  have e : ∀ k ∈ (range G.nface).filter (G.touches i),
      (if (G.face k).left = i then G.ggL u ug k else G.ggR u ug k) d j =
        c j / G.ar i * (G.sgn i k * (G.len k * G.nrm k d)) := by
    intro k hk
    obtain ⟨hk, ht⟩ := mem_filter.1 hk
    have hk := mem_range.1 hk
    obtain ⟨h1, h2, h3, h4, h5⟩ := h.kind hk
    obtain ⟨t, _, _, htu⟩ := ut_convex ho hk u ug j
    have hul : u (G.face k).left = c := hu _ (by omega)
    have hur : G.ur u ug k = c := by
      unfold ur
      split_ifs with hb
      · exact hug k hb
      · exact hu _ (h5 (by omega))
    rw [hul, hur] at htu
    have htu : G.ut u ug k j = c j * G.len k := by rw [htu]; ring
    by_cases hl : (G.face k).left = i
    · simp only [hl, if_true, ggL, sgn, htu]; ring
    · have hr : (G.face k).right = i := ht.resolve_left hl
      simp only [hl, if_false, ggR, sgn, htu, hr]; ring
  rw [sum_congr rfl e, ← mul_sum, closed_touch h hi d, mul_zero]
  rfl

/-- C45: Green–Gauss gradients are linear in the data. -/
theorem C45_greenGauss_linear (G : Geo) (a b : ℝ) (u ug v vg : ℕ → Fin nv → ℝ) (i : ℕ) :
    G.greenGauss (fun i => a • u i + b • v i) (fun k => a • ug k + b • vg k) i =
      a • G.greenGauss u ug i + b • G.greenGauss v vg i := by
  have hut : ∀ k j, G.ut (fun i => a • u i + b • v i) (fun k => a • ug k + b • vg k) k j = a * G.ut u ug k j + b * G.ut v vg k j := by
    intro k j
    have : G.ur (fun i => a • u i + b • v i) (fun k => a • ug k + b • vg k) k j = a * G.ur u ug k j + b * G.ur v vg k j := by
      unfold ur; split_ifs <;> rfl
    unfold ut
    rw [this]
    simp only [Pi.add_apply, Pi.smul_apply, smul_eq_mul]
    ring
  unfold greenGauss
  rw [accum_eq, accum_eq, accum_eq]
  funext d j
  simp only [Pi.add_apply, Pi.smul_apply, smul_eq_mul, Finset.sum_apply, zero_add, mul_sum, ← sum_add_distrib]
  refine sum_congr rfl fun k _ => ?_
  have hL : G.ggL (fun i => a • u i + b • v i) (fun k => a • ug k + b • vg k) k d j = a * G.ggL u ug k d j + b * G.ggL v vg k d j := by
    simp only [ggL, hut]; ring
  have hR : G.ggR (fun i => a • u i + b • v i) (fun k => a • ug k + b • vg k) k d j = a * G.ggR u ug k d j + b * G.ggR v vg k d j := by
    simp only [ggR, hut]; ring
  split_ifs <;> simp only [hL, hR, Pi.zero_apply] <;> ring

/-! ### Weighted least squares -/

theorem lsMat_eq (h : G.Ok) {i : ℕ} (hi : i < G.m.nelem) (a b : Fin 2) :
    G.lsMat i a b = ∑ k ∈ (range G.nface).filter (G.touches i), G.w2 k * G.dr k a * G.dr k b := by
  have := congrFun (congrFun (accum_touch h (fun k => Matrix.of fun a b => G.w2 k * G.dr k a * G.dr k b)
    (fun k => Matrix.of fun a b => G.w2 k * G.dr k a * G.dr k b) hi) a) b
  refine Eq.trans this ?_
  simp only [ite_self, Matrix.sum_apply, Matrix.of_apply]

theorem lsRhs_eq (h : G.Ok) (u ug : ℕ → Fin nv → ℝ) {i : ℕ} (hi : i < G.m.nelem) (a : Fin 2) (j : Fin nv) :
    G.lsRhs u ug i a j = ∑ k ∈ (range G.nface).filter (G.touches i),
      G.w2 k * G.dr k a * (u (G.face k).left j - G.ur u ug k j) := by
  have := congrFun (congrFun (accum_touch h (fun k => Matrix.of fun a j => G.w2 k * G.dr k a * (u (G.face k).left j - G.ur u ug k j))
    (fun k => Matrix.of fun a j => G.w2 k * G.dr k a * (u (G.face k).left j - G.ur u ug k j)) hi) a) j
  refine Eq.trans this ?_
  simp only [ite_self, Matrix.sum_apply, Matrix.of_apply]

/-- The vectors from the cell's neighbours span the plane. -/
def Spans (G : Geo) (i : ℕ) : Prop := ∃ k k', k < G.nface ∧ k' < G.nface ∧ G.touches i k ∧ G.touches i k' ∧
  G.dr k 0 * G.dr k' 1 - G.dr k 1 * G.dr k' 0 ≠ 0

/-- The cell's neighbours have centres different from its own. -/
def Separate (G : Geo) (i : ℕ) : Prop := ∀ k, k < G.nface → G.touches i k → G.dr k ≠ 0

theorem w2_pos {k : ℕ} (h : G.dr k ≠ 0) : 0 < G.w2 k := by
  unfold w2
  have : 0 < 0 + G.dr k 0 * G.dr k 0 + G.dr k 1 * G.dr k 1 := by
    by_contra hn
    apply h
    have h0 : G.dr k 0 = 0 := by nlinarith [mul_self_nonneg (G.dr k 0), mul_self_nonneg (G.dr k 1)]
    have h1 : G.dr k 1 = 0 := by nlinarith [mul_self_nonneg (G.dr k 0), mul_self_nonneg (G.dr k 1)]
    funext d
    fin_cases d
    · exact h0
    · exact h1
  positivity

/-- C45: the least-squares matrix of a cell is invertible exactly if its stencil spans the plane. -/
theorem C45_wls_invertible_iff (h : G.Ok) {i : ℕ} (hi : i < G.m.nelem) (hs : G.Separate i) :
    IsUnit (G.lsMat i).det ↔ G.Spans i := by
  rw [isUnit_iff_ne_zero]
  set S := (range G.nface).filter (G.touches i) with hS
  have hquad : ∀ v : Fin 2 → ℝ, ∑ a, v a * (Matrix.mulVec (G.lsMat i) v) a = ∑ k ∈ S, G.w2 k * (G.dr k 0 * v 0 + G.dr k 1 * v 1) ^ 2 := by
    intro v
    simp only [Matrix.mulVec, dotProduct, Fin.sum_univ_two, lsMat_eq h hi, sum_mul, mul_sum, ← sum_add_distrib]
    exact sum_congr rfl fun k _ => by ring
  constructor
  · intro hdet
    by_contra hns
    apply hdet
    rw [← Matrix.exists_mulVec_eq_zero_iff]
    -- all vectors are parallel
    by_cases hex : ∃ k0, k0 < G.nface ∧ G.touches i k0
    · obtain ⟨k0, hk0, ht0⟩ := hex
      refine ⟨![- G.dr k0 1, G.dr k0 0], fun e => ?_, ?_⟩
      · apply hs k0 hk0 ht0
        have e0 := congrFun e 0
        have e1 := congrFun e 1
        simp at e0 e1
        funext d; fin_cases d
        · exact e1
        · exact e0
      · have hp : ∀ k ∈ S, G.dr k0 0 * G.dr k 1 - G.dr k0 1 * G.dr k 0 = 0 := fun k hk => by
          obtain ⟨h1, h2⟩ := mem_filter.1 hk
          by_contra hne
          exact hns ⟨k0, k, hk0, mem_range.1 h1, ht0, h2, hne⟩
        funext a
        simp only [Matrix.mulVec, dotProduct, Fin.sum_univ_two, lsMat_eq h hi, sum_mul, ← sum_add_distrib, Pi.zero_apply]
        refine sum_eq_zero fun k hk => ?_
        have := hp k hk
        simp only [Matrix.cons_val_zero, Matrix.cons_val_one]
        linear_combination (G.w2 k * G.dr k a) * this
    · refine ⟨![1, 0], fun e => by simpa using congrFun e 0, ?_⟩
      have : S = ∅ := filter_eq_empty_iff.2 fun k hk ht => hex ⟨k, mem_range.1 hk, ht⟩
      funext a
      simp only [Matrix.mulVec, dotProduct, lsMat_eq h hi, ← hS, this, sum_empty, zero_mul, sum_const_zero, Pi.zero_apply]
  · rintro ⟨k, k', hk, hk', ht, ht', hne⟩ hdet
    obtain ⟨v, hv, hz⟩ := Matrix.exists_mulVec_eq_zero_iff.2 hdet
    have := hquad v
    rw [hz] at this
    simp only [Pi.zero_apply, mul_zero, sum_const_zero] at this
    have hall := (sum_eq_zero_iff_of_nonneg (fun k hk => by
      obtain ⟨h1, h2⟩ := mem_filter.1 hk
      have := w2_pos (hs k (mem_range.1 h1) h2)
      positivity)).1 this.symm
    have g : ∀ k, k < G.nface → G.touches i k → G.dr k 0 * v 0 + G.dr k 1 * v 1 = 0 := fun k hk ht => by
      have := hall k (mem_filter.2 ⟨mem_range.2 hk, ht⟩)
      have hw := w2_pos (hs k hk ht)
      rcases mul_eq_zero.1 this with h | h
      · exact absurd h hw.ne'
      · exact pow_eq_zero_iff (two_ne_zero) |>.1 h
    have g1 := g k hk ht
    have g2 := g k' hk' ht'
    apply hv
    have h0 : v 0 * (G.dr k 0 * G.dr k' 1 - G.dr k 1 * G.dr k' 0) = 0 := by linear_combination G.dr k' 1 * g1 - G.dr k 1 * g2
    have h1 : v 1 * (G.dr k 0 * G.dr k' 1 - G.dr k 1 * G.dr k' 0) = 0 := by linear_combination G.dr k 0 * g2 - G.dr k' 0 * g1
    funext d; fin_cases d
    · exact (mul_eq_zero.1 h0).resolve_right hne
    · exact (mul_eq_zero.1 h1).resolve_right hne

/-- C45: weighted least-squares gradients of linear fields are exact in every cell whose stencil spans the plane. -/
theorem C45_wls_linear_exact (h : G.Ok) {i : ℕ} (hi : i < G.m.nelem) (hs : G.Separate i) (hsp : G.Spans i)
    (a : Fin nv → ℝ) (g : Matrix (Fin 2) (Fin nv) ℝ) {u ug : ℕ → Fin nv → ℝ}
    (hu : ∀ i, i < G.m.nelem + G.m.nconnface → ∀ j, u i j = a j + (g 0 j * G.rc i 0 + g 1 j * G.rc i 1))
    (hug : ∀ k, k < G.m.nbface → ∀ j, ug k j = a j + (g 0 j * G.rcbp k 0 + g 1 j * G.rcbp k 1)) :
    G.wls u ug i = g := by
  have hdet := (C45_wls_invertible_iff h hi hs).2 hsp
  have key : G.lsRhs u ug i = G.lsMat i * g := by
    ext d j
    rw [lsRhs_eq h u ug hi, Matrix.mul_apply, Fin.sum_univ_two, lsMat_eq h hi, lsMat_eq h hi, sum_mul, sum_mul, ← sum_add_distrib]
    refine sum_congr rfl fun k hk => ?_
    obtain ⟨hk, _⟩ := mem_filter.1 hk
    obtain ⟨h1, h2, h3, h4, h5⟩ := h.kind (mem_range.1 hk)
    have hul := hu (G.face k).left (by omega) j
    have hur : G.ur u ug k j = a j + (g 0 j * G.xr k 0 + g 1 j * G.xr k 1) := by
      unfold ur xr
      split_ifs with hb
      · exact hug k hb j
      · exact hu _ (h5 (by omega)) j
    rw [hul, hur]
    simp only [dr, xl]
    ring
  unfold wls
  rw [key, ← Matrix.mul_assoc, Matrix.nonsing_inv_mul _ hdet, Matrix.one_mul]

/-- C45: weighted least-squares gradients are linear in the data. -/
theorem C45_wls_linear (h : G.Ok) {i : ℕ} (hi : i < G.m.nelem) (a b : ℝ) (u ug v vg : ℕ → Fin nv → ℝ) :
    G.wls (fun i => a • u i + b • v i) (fun k => a • ug k + b • vg k) i = a • G.wls u ug i + b • G.wls v vg i := by
  unfold wls
  rw [← Matrix.mul_smul, ← Matrix.mul_smul, ← Matrix.mul_add]
  congr 1
  ext d j
  simp only [Matrix.add_apply, Matrix.smul_apply, smul_eq_mul, lsRhs_eq h _ _ hi, mul_sum, ← sum_add_distrib]
  refine sum_congr rfl fun k _ => ?_
  have : G.ur (fun i => a • u i + b • v i) (fun k => a • ug k + b • vg k) k j = a * G.ur u ug k j + b * G.ur v vg k j := by
    unfold ur; split_ifs <;> rfl
  rw [this]
  simp only [Pi.add_apply, Pi.smul_apply, smul_eq_mul]
  ring

/-- C45: the computed gradient is the unique minimiser of the sum of squared, inverse-distance weighted errors of the differences to the
neighbours. -/
theorem C45_wls_minimises (h : G.Ok) {i : ℕ} (hi : i < G.m.nelem) (hs : G.Separate i) (hsp : G.Spans i) (u ug : ℕ → Fin nv → ℝ)
    (j : Fin nv) (x : Fin 2 → ℝ)
    (hx : ∑ k ∈ (range G.nface).filter (G.touches i),
        ((u (G.face k).left j - G.ur u ug k j) - (x 0 * G.dr k 0 + x 1 * G.dr k 1)) ^ 2 / (G.dr k 0 ^ 2 + G.dr k 1 ^ 2) ≤
      ∑ k ∈ (range G.nface).filter (G.touches i),
        ((u (G.face k).left j - G.ur u ug k j) - (G.wls u ug i 0 j * G.dr k 0 + G.wls u ug i 1 j * G.dr k 1)) ^ 2 / (G.dr k 0 ^ 2 + G.dr k 1 ^ 2)) :
    x = fun d => G.wls u ug i d j := by
  have hdet := (C45_wls_invertible_iff h hi hs).2 hsp
  set S := (range G.nface).filter (G.touches i) with hS
  set y : Fin 2 → ℝ := fun d => G.wls u ug i d j with hy
  have hnorm : ∀ d, ∑ k ∈ S, G.w2 k * G.dr k d * ((u (G.face k).left j - G.ur u ug k j) - (y 0 * G.dr k 0 + y 1 * G.dr k 1)) = 0 := by
    intro d
    have : G.lsMat i * G.wls u ug i = G.lsRhs u ug i := by
      unfold wls; rw [← Matrix.mul_assoc, Matrix.mul_nonsing_inv _ hdet, Matrix.one_mul]
    have := congrFun (congrFun this d) j
    rw [Matrix.mul_apply, Fin.sum_univ_two, lsMat_eq h hi, lsMat_eq h hi, lsRhs_eq h _ _ hi, ← hS, sum_mul, sum_mul, ← sum_add_distrib] at this
    rw [← sub_eq_zero.2 this.symm, ← sum_sub_distrib]
    exact sum_congr rfl fun k _ => by rw [hy]; ring
  have hw : ∀ k, ∀ z : ℝ, z ^ 2 / (G.dr k 0 ^ 2 + G.dr k 1 ^ 2) = G.w2 k * z ^ 2 := fun k z => by unfold w2; ring
  simp only [hw] at hx
  have hdiff : ∑ k ∈ S, G.w2 k * ((u (G.face k).left j - G.ur u ug k j) - (x 0 * G.dr k 0 + x 1 * G.dr k 1)) ^ 2 =
      ∑ k ∈ S, G.w2 k * ((u (G.face k).left j - G.ur u ug k j) - (y 0 * G.dr k 0 + y 1 * G.dr k 1)) ^ 2 +
      ∑ k ∈ S, G.w2 k * ((x 0 - y 0) * G.dr k 0 + (x 1 - y 1) * G.dr k 1) ^ 2 := by
    have e0 := hnorm 0
    have e1 := hnorm 1
    have : ∑ k ∈ S, G.w2 k * ((u (G.face k).left j - G.ur u ug k j) - (x 0 * G.dr k 0 + x 1 * G.dr k 1)) ^ 2 =
      ∑ k ∈ S, G.w2 k * ((u (G.face k).left j - G.ur u ug k j) - (y 0 * G.dr k 0 + y 1 * G.dr k 1)) ^ 2 +
      ∑ k ∈ S, G.w2 k * ((x 0 - y 0) * G.dr k 0 + (x 1 - y 1) * G.dr k 1) ^ 2
      - 2 * (x 0 - y 0) * ∑ k ∈ S, G.w2 k * G.dr k 0 * ((u (G.face k).left j - G.ur u ug k j) - (y 0 * G.dr k 0 + y 1 * G.dr k 1))
      - 2 * (x 1 - y 1) * ∑ k ∈ S, G.w2 k * G.dr k 1 * ((u (G.face k).left j - G.ur u ug k j) - (y 0 * G.dr k 0 + y 1 * G.dr k 1)) := by
      rw [mul_sum, mul_sum, ← sum_add_distrib, ← sum_sub_distrib, ← sum_sub_distrib]
      exact sum_congr rfl fun k _ => by ring
    rw [this, e0, e1]; ring
  have hle : ∑ k ∈ S, G.w2 k * ((x 0 - y 0) * G.dr k 0 + (x 1 - y 1) * G.dr k 1) ^ 2 ≤ 0 := by
    have hy0 : G.wls u ug i 0 j = y 0 := rfl
    have hy1 : G.wls u ug i 1 j = y 1 := rfl
    rw [hy0, hy1] at hx
    linarith
  have hnn : ∀ k ∈ S, 0 ≤ G.w2 k * ((x 0 - y 0) * G.dr k 0 + (x 1 - y 1) * G.dr k 1) ^ 2 := fun k hk => by
    obtain ⟨h1, h2⟩ := mem_filter.1 hk
    have := w2_pos (hs k (mem_range.1 h1) h2)
    positivity
  have hz := (sum_eq_zero_iff_of_nonneg hnn).1 (le_antisymm hle (sum_nonneg hnn))
  have g : ∀ k, k < G.nface → G.touches i k → (x 0 - y 0) * G.dr k 0 + (x 1 - y 1) * G.dr k 1 = 0 := fun k hk ht => by
    have := hz k (mem_filter.2 ⟨mem_range.2 hk, ht⟩)
    rcases mul_eq_zero.1 this with h | h
    · exact absurd h (w2_pos (hs k hk ht)).ne'
    · exact pow_eq_zero_iff (two_ne_zero) |>.1 h
  obtain ⟨k, k', hk, hk', ht, ht', hne⟩ := hsp
  have g1 := g k hk ht
  have g2 := g k' hk' ht'
  have h0 : (x 0 - y 0) * (G.dr k 0 * G.dr k' 1 - G.dr k 1 * G.dr k' 0) = 0 := by linear_combination G.dr k' 1 * g1 - G.dr k 1 * g2
  have h1 : (x 1 - y 1) * (G.dr k 0 * G.dr k' 1 - G.dr k 1 * G.dr k' 0) = 0 := by linear_combination G.dr k 0 * g2 - G.dr k' 0 * g1
  have h0 := (mul_eq_zero.1 h0).resolve_right hne
  have h1 := (mul_eq_zero.1 h1).resolve_right hne
  funext d; fin_cases d
  · show x 0 = y 0; linarith
  · show x 1 = y 1; linarith

end Geo

/-! ### Example: a quadrilateral and a triangle with one connectivity face -/

/-- The mesh `exPart` with centroids and centres mirrored in the face midpoints. -/
noncomputable def exGeo : Geo where
  m := exPart
  s := exPart_topological.choose
  rc := fun i => if i = 0 then ![1/2, 1/2] else if i = 1 then ![4/3, 1/3] else ![5/3, 2/3]
  rcbp := fun k => if k = 0 then ![1/2, -1/2] else if k = 1 then ![5/3, -1/3] else if k = 2 then ![1/2, 3/2] else ![-1/2, 1/2]
  ar := fun i => if i = 0 then 1 else 1/2

theorem exGeo_ok : exGeo.Ok := ⟨exPart_conforming, exPart_nozero, exPart_topological.choose_spec.1⟩

theorem exGeo_faces : exGeo.s.faces = [⟨0, 3, 0, 1⟩, ⟨1, 4, 1, 4⟩, ⟨0, 5, 2, 3⟩, ⟨0, 6, 3, 0⟩, ⟨0, 1, 1, 2⟩, ⟨1, 2, 4, 2⟩] :=
  exPart_topological.choose_spec.2.1

theorem exGeo_face : exGeo.nface = 6 ∧ exGeo.face 0 = ⟨0, 3, 0, 1⟩ ∧ exGeo.face 1 = ⟨1, 4, 1, 4⟩ ∧ exGeo.face 2 = ⟨0, 5, 2, 3⟩ ∧
    exGeo.face 3 = ⟨0, 6, 3, 0⟩ ∧ exGeo.face 4 = ⟨0, 1, 1, 2⟩ ∧ exGeo.face 5 = ⟨1, 2, 4, 2⟩ := by
  unfold Geo.nface Geo.face; rw [exGeo_faces]; exact ⟨rfl, rfl, rfl, rfl, rfl, rfl, rfl⟩

theorem exGeo_coords : exGeo.m.coords 0 = ![0, 0] ∧ exGeo.m.coords 1 = ![1, 0] ∧ exGeo.m.coords 2 = ![1, 1] ∧
    exGeo.m.coords 3 = ![0, 1] ∧ exGeo.m.coords 4 = ![2, 0] := by
  refine ⟨?_, ?_, ?_, ?_, ?_⟩ <;> simp [exGeo, exPart, exMesh]

theorem exGeo_lr : exGeo.xl 0 = ![1/2, 1/2] ∧ exGeo.xl 1 = ![4/3, 1/3] ∧ exGeo.xl 2 = ![1/2, 1/2] ∧ exGeo.xl 3 = ![1/2, 1/2] ∧
    exGeo.xl 4 = ![1/2, 1/2] ∧ exGeo.xl 5 = ![4/3, 1/3] ∧ exGeo.xr 0 = ![1/2, -1/2] ∧ exGeo.xr 1 = ![5/3, -1/3] ∧
    exGeo.xr 2 = ![1/2, 3/2] ∧ exGeo.xr 3 = ![-1/2, 1/2] ∧ exGeo.xr 4 = ![4/3, 1/3] ∧ exGeo.xr 5 = ![5/3, 2/3] := by
  obtain ⟨_, f0, f1, f2, f3, f4, f5⟩ := exGeo_face
  have hn : exGeo.m.nbface = 4 := rfl
  simp only [Geo.xl, Geo.xr, f0, f1, f2, f3, f4, f5, hn]
  simp [exGeo]

theorem exGeo_offMid : exGeo.OffMid := by
  intro k hk
  obtain ⟨hn, f0, f1, f2, f3, f4, f5⟩ := exGeo_face
  obtain ⟨l0, l1, l2, l3, l4, l5, r0, r1, r2, r3, r4, r5⟩ := exGeo_lr
  obtain ⟨c0, c1, c2, c3, c4⟩ := exGeo_coords
  rw [hn] at hk
  obtain rfl | rfl | rfl | rfl | rfl | rfl : k = 0 ∨ k = 1 ∨ k = 2 ∨ k = 3 ∨ k = 4 ∨ k = 5 := by omega
  all_goals
    simp only [Geo.mid, l0, l1, l2, l3, l4, l5, r0, r1, r2, r3, r4, r5, f0, f1, f2, f3, f4, f5, c0, c1, c2, c3, c4]
    constructor
    all_goals
      intro e
      have e0 := congrFun e 0
      have e1 := congrFun e 1
      first | (norm_num [fMid] at e0; done) | norm_num [fMid] at e1

theorem exGeo_spans : exGeo.Spans 0 ∧ exGeo.Separate 0 := by
  obtain ⟨hn, f0, f1, f2, f3, f4, f5⟩ := exGeo_face
  obtain ⟨l0, l1, l2, l3, l4, l5, r0, r1, r2, r3, r4, r5⟩ := exGeo_lr
  refine ⟨⟨0, 3, by omega, by omega, ?_, ?_, ?_⟩, ?_⟩
  · left; rw [f0]
  · left; rw [f3]
  · simp only [Geo.dr, l0, l3, r0, r3]; norm_num
  · intro k hk ht
    rw [hn] at hk
    obtain rfl | rfl | rfl | rfl | rfl | rfl : k = 0 ∨ k = 1 ∨ k = 2 ∨ k = 3 ∨ k = 4 ∨ k = 5 := by omega
    all_goals
      intro e
      have e0 := congrFun e 0
      have e1 := congrFun e 1
      simp only [Geo.dr, l0, l1, l2, l3, l4, l5, r0, r1, r2, r3, r4, r5, Pi.zero_apply] at e0 e1
      first | (norm_num at e0; done) | norm_num at e1

/-- Hypotheses of the constant-field theorem are met: zero Green–Gauss gradients for the constant state (5, 7). -/
example : exGeo.greenGauss (fun _ => (![5, 7] : Fin 2 → ℝ)) (fun _ => ![5, 7]) 1 = 0 :=
  Geo.C45_greenGauss_constant exGeo_ok exGeo_offMid ![5, 7] (fun _ _ => rfl) (fun _ _ => rfl) (by show 1 < 2; decide)

/-- Hypotheses of the exactness theorem are met: the field 3 + 2x - y has gradient (2, -1). -/
example : exGeo.wls (fun i (_ : Fin 1) => 3 + (2 * exGeo.rc i 0 + (-1) * exGeo.rc i 1))
    (fun k _ => 3 + (2 * exGeo.rcbp k 0 + (-1) * exGeo.rcbp k 1)) 0 = Matrix.of fun d _ => ![2, -1] d :=
  Geo.C45_wls_linear_exact exGeo_ok (by show 0 < 2; decide) exGeo_spans.2 exGeo_spans.1 (fun _ => 3) _
    (fun _ _ _ => by simp) (fun _ _ _ => by simp)

end FV
end FVENS
