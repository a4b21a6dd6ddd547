import Verif.FV.SimilarRun

/-!
# Gradients, reconstruction and second-order residual on a moved, turned and scaled mesh (C94)
-/

namespace FVENS
namespace FV

open Msh Finset Flux

/-! ### Gradients -/

section alg
variable (T : Similarity)

theorem gr_add (a b : Gr) : T.gr (a + b) = T.gr a + T.gr b := by
  funext d v; fin_cases d <;> fin_cases v <;> simp [Similarity.gr, Similarity.st, rotS] <;> ring

/-- As a homomorphism. -/
noncomputable def grHom : Gr →+ Gr := ⟨⟨T.gr, gr_zero T⟩, gr_add T⟩

theorem invDist_pt (x y : V2) : invDist (T.pt x) (T.pt y) = invDist x y / T.L := by
  unfold invDist
  rw [T.pt_sub, T.pt_sub, rotV_0, rotV_1]
  have : (0 + T.L * (T.c * (y 0 - x 0) - T.s * (y 1 - x 1)) * (T.L * (T.c * (y 0 - x 0) - T.s * (y 1 - x 1)))) +
      T.L * (T.s * (y 0 - x 0) + T.c * (y 1 - x 1)) * (T.L * (T.s * (y 0 - x 0) + T.c * (y 1 - x 1))) =
      T.L ^ 2 * (0 + (y 0 - x 0) * (y 0 - x 0) + (y 1 - x 1) * (y 1 - x 1)) := by
    linear_combination T.L ^ 2 * ((y 0 - x 0) ^ 2 + (y 1 - x 1) ^ 2) * T.unit
  rw [this, Real.sqrt_mul (by positivity), Real.sqrt_sq T.pos.le, mul_comm, div_div]

/-- A directional difference of turned gradients. -/
theorem gr_diff (g : Gr) (x y : V2) (v : Fin 4) :
    T.gr g 0 v * (T.pt x 0 - T.pt y 0) + T.gr g 1 v * (T.pt x 1 - T.pt y 1) =
      T.st (fun v => g 0 v * (x 0 - y 0) + g 1 v * (x 1 - y 1)) v := by
  have hL := T.pos.ne'
  have hu := T.unit
  rw [T.pt_sub, T.pt_sub, rotV_0, rotV_1]
  have e : ∀ a b p q : ℝ, (T.c * a - T.s * b) / T.L * (T.L * (T.c * p - T.s * q)) + (T.s * a + T.c * b) / T.L * (T.L * (T.s * p + T.c * q)) = a * p + b * q := fun a b p q => by
    field_simp
    linear_combination (a * p + b * q) * hu
  change (T.c * T.st (g 0) v - T.s * T.st (g 1) v) / T.L * _ + (T.s * T.st (g 0) v + T.c * T.st (g 1) v) / T.L * _ = _
  rw [e]
  fin_cases v <;> simp [Similarity.st, rotS] <;> ring

/-- Matrix of the turn. -/
def turn : Matrix (Fin 2) (Fin 2) ℝ := !![T.c, -T.s; T.s, T.c]
/-- Matrix of the turn of states, acting from the right. -/
def turnS : Matrix (Fin 4) (Fin 4) ℝ := !![1, 0, 0, 0; 0, T.c, T.s, 0; 0, -T.s, T.c, 0; 0, 0, 0, 1]

@[simp] theorem turn_00 : turn T 0 0 = T.c := rfl
@[simp] theorem turn_01 : turn T 0 1 = -T.s := rfl
@[simp] theorem turn_10 : turn T 1 0 = T.s := rfl
@[simp] theorem turn_11 : turn T 1 1 = T.c := rfl

/-- Turned gradients as a matrix product. -/
noncomputable def turnM (B : Matrix (Fin 2) (Fin 4) ℝ) : Matrix (Fin 2) (Fin 4) ℝ := (1 / T.L) • (turn T * B * turnS T)

theorem turnM_apply (B : Matrix (Fin 2) (Fin 4) ℝ) (d : Fin 2) (v : Fin 4) : turnM T B d v = T.gr (fun d v => B d v) d v := by
  simp only [turnM, Matrix.smul_apply, Matrix.mul_apply, Fin.sum_univ_two, Fin.sum_univ_four, smul_eq_mul]
  fin_cases d <;> fin_cases v <;> simp [Similarity.gr, Similarity.st, rotS, turnS] <;> ring

theorem turn_inv : turn T * (turn T).transpose = 1 ∧ (turn T).transpose * turn T = 1 := by
  have h := T.unit
  constructor
  all_goals
    funext a b
    fin_cases a <;> fin_cases b <;> simp [turn, Matrix.mul_apply] <;> linarith

end alg

namespace Moved
variable {T : Similarity} {D D' : Disc} (h : Moved T D D') (hok : D.G.Ok)
include h hok

variable {u u' ug ug' : ℕ → St} (hu : ∀ i, i < D.G.rows → u' i = T.st (u i)) (hg : ∀ k, k < D.G.m.nbface → ug' k = T.st (ug k))
include hu hg

omit h hg in
theorem left_st {k : ℕ} (hk : k < D.G.nface) : u' (D.G.face k).left = T.st (u (D.G.face k).left) :=
  hu _ (by have := (hok.kind hk).1; unfold Geo.rows; omega)

theorem ut {k : ℕ} (hk : k < D.G.nface) (j : Fin 4) : D'.G.ut u' ug' k j = T.L * T.st (D.G.ut u ug k) j := by
  have hL := T.pos.ne'
  unfold Geo.ut
  rw [h.face, left_st hok hu hk, h.ur_st hok hu hg hk, h.xl hok hk, h.xr hok hk, h.mid, h.len, invDist_pt, invDist_pt]
  generalize invDist (D.G.xl k) (D.G.mid k) = a
  generalize invDist (D.G.xr k) (D.G.mid k) = b
  have e : ∀ x y : ℝ, (x * (a / T.L) + y * (b / T.L)) / (a / T.L + b / T.L) = (x * a + y * b) / (a + b) := fun x y => by
    rw [mul_div_assoc', mul_div_assoc', ← add_div, ← add_div, div_div_div_cancel_right₀ hL]
  rw [e]
  fin_cases j <;> simp [Similarity.st, rotS] <;> ring

/-- C94, Green–Gauss gradients. -/
theorem C94_greenGauss {i : ℕ} : D'.G.greenGauss u' ug' i = T.gr (D.G.greenGauss u ug i) := by
  have hL := T.pos.ne'
  have key : ∀ k, k < D.G.nface → ∀ a : ℝ, (fun (d : Fin 2) (j : Fin 4) => (D'.G.ut u' ug' k j * D'.G.nrm k d) * (1 / (T.L * T.L * a))) =
      T.gr fun d j => (D.G.ut u ug k j * D.G.nrm k d) * (1 / a) := fun k hk a => by
    funext d j
    rw [h.ut hok hu hg hk, h.nrm, show (1 : ℝ) / (T.L * T.L * a) = 1 / a / T.L / T.L by rw [div_div, div_div]; ring_nf]
    fin_cases d <;> fin_cases j <;> simp [Similarity.gr, Similarity.st, Similarity.dir, rotS, rotV] <;> field_simp
  have hneg : ∀ g : Gr, T.gr (fun d j => - g d j) = fun d j => - T.gr g d j := fun g => map_neg (grHom T) g
  unfold Geo.greenGauss
  rw [accum_eq, accum_eq, h.faces, h.nbface, show D'.G.ni = D.G.ni by unfold Geo.ni; rw [h.mesh]; rfl]
  change _ = grHom T _
  rw [map_add, map_sum]
  congr 1
  · exact (gr_zero T).symm
  · refine sum_congr rfl fun k hk => ?_
    have hk : k < D.G.nface := mem_range.1 hk
    obtain ⟨k1, k2, k3, k4, k5⟩ := hok.kind hk
    rw [map_add]
    congr 1
    · split_ifs with hl
      · unfold Geo.ggL
        rw [h.face, h.ar _ k1]
        exact key k hk _
      · exact (gr_zero T).symm
    · split_ifs with hr
      · unfold Geo.ggR
        rw [h.face, h.ar _ (k4.1 hr.1)]
        have := key k hk (D.G.ar (D.G.face k).right)
        exact (congrArg (fun g : Gr => fun d j => - g d j) this).trans
          (hneg fun d j => D.G.ut u ug k j * D.G.nrm k d * (1 / D.G.ar (D.G.face k).right)).symm
      · exact (gr_zero T).symm

omit hu hg in
theorem dr {k : ℕ} (hk : k < D.G.nface) : D'.G.dr k = fun d => T.L * rotV T.c T.s (D.G.dr k) d := by
  funext d
  unfold Geo.dr
  rw [h.xl hok hk, h.xr hok hk, T.pt_sub]

omit hu hg in
theorem w2 {k : ℕ} (hk : k < D.G.nface) : D'.G.w2 k = D.G.w2 k / (T.L * T.L) := by
  unfold Geo.w2
  rw [h.dr hok hk, div_div]
  dsimp only
  rw [rotV_0, rotV_1]
  congr 1
  linear_combination T.L * T.L * (D.G.dr k 0 ^ 2 + D.G.dr k 1 ^ 2) * T.unit

omit hu hg in
theorem lsMat {i : ℕ} : D'.G.lsMat i = turn T * D.G.lsMat i * (turn T).transpose := by
  have hL := T.pos.ne'
  have key : ∀ k, k < D.G.nface → (Matrix.of fun a b => D'.G.w2 k * D'.G.dr k a * D'.G.dr k b : Matrix (Fin 2) (Fin 2) ℝ) =
      turn T * (Matrix.of fun a b => D.G.w2 k * D.G.dr k a * D.G.dr k b : Matrix (Fin 2) (Fin 2) ℝ) * (turn T).transpose := fun k hk => by
    ext a b
    simp only [Matrix.of_apply, Matrix.mul_apply, Fin.sum_univ_two, Matrix.transpose_apply]
    rw [h.w2 hok hk, h.dr hok hk]
    fin_cases a <;> fin_cases b <;> simp [rotV] <;> field_simp <;> ring
  unfold Geo.lsMat
  rw [accum_eq, accum_eq, h.faces, h.nbface, show D'.G.ni = D.G.ni by unfold Geo.ni; rw [h.mesh]; rfl, zero_add, zero_add, Matrix.mul_sum, Matrix.sum_mul]
  refine sum_congr rfl fun k hk => ?_
  have hk : k < D.G.nface := mem_range.1 hk
  rw [key k hk, Matrix.mul_add, Matrix.add_mul]
  congr 1 <;> split_ifs <;> simp

theorem lsRhs {i : ℕ} : D'.G.lsRhs u' ug' i = turnM T (D.G.lsRhs u ug i) := by
  have hL := T.pos.ne'
  have key : ∀ k, k < D.G.nface →
      (Matrix.of fun a j => D'.G.w2 k * D'.G.dr k a * (u' (D'.G.face k).left j - D'.G.ur u' ug' k j) : Matrix (Fin 2) (Fin 4) ℝ) =
      turnM T (Matrix.of fun a j => D.G.w2 k * D.G.dr k a * (u (D.G.face k).left j - D.G.ur u ug k j)) := fun k hk => by
    ext a b
    rw [turnM_apply]
    simp only [Matrix.of_apply]
    rw [h.w2 hok hk, h.dr hok hk, h.face, left_st hok hu hk, h.ur_st hok hu hg hk]
    fin_cases a <;> fin_cases b <;> simp [Similarity.gr, Similarity.st, rotS, rotV] <;> field_simp <;> ring
  have hz : turnM T 0 = 0 := by simp [turnM]
  have ha : ∀ A B, turnM T (A + B) = turnM T A + turnM T B := fun A B => by
    simp only [turnM, Matrix.mul_add, Matrix.add_mul, smul_add]
  unfold Geo.lsRhs
  rw [accum_eq, accum_eq, h.faces, h.nbface, show D'.G.ni = D.G.ni by unfold Geo.ni; rw [h.mesh]; rfl, zero_add, zero_add]
  have hs : ∀ (s : Finset ℕ) (f : ℕ → Matrix (Fin 2) (Fin 4) ℝ), turnM T (∑ k ∈ s, f k) = ∑ k ∈ s, turnM T (f k) := fun s f =>
    map_sum (⟨⟨turnM T, hz⟩, ha⟩ : Matrix (Fin 2) (Fin 4) ℝ →+ Matrix (Fin 2) (Fin 4) ℝ) f s
  rw [hs]
  refine sum_congr rfl fun k hk => ?_
  have hk : k < D.G.nface := mem_range.1 hk
  rw [key k hk, ha]
  congr 1 <;> split_ifs
  · rfl
  · exact hz.symm
  · rfl
  · exact hz.symm

/-- C94, weighted least-squares gradients. -/
theorem C94_wls {i : ℕ} : (D'.G.wls u' ug' i : Gr) = T.gr fun d v => D.G.wls u ug i d v := by
  obtain ⟨t1, t2⟩ := turn_inv T
  have hinv : (turn T * D.G.lsMat i * (turn T).transpose)⁻¹ = turn T * (D.G.lsMat i)⁻¹ * (turn T).transpose := by
    rw [Matrix.mul_inv_rev, Matrix.mul_inv_rev, Matrix.inv_eq_left_inv t1, Matrix.inv_eq_left_inv t2, Matrix.mul_assoc]
  have key : D'.G.wls u' ug' i = turnM T (D.G.wls u ug i) := by
    unfold Geo.wls
    rw [h.lsMat hok, hinv, h.lsRhs hok hu hg]
    unfold turnM
    rw [Matrix.mul_smul]
    congr 1
    rw [Matrix.mul_assoc (turn T * _), ← Matrix.mul_assoc (turn T).transpose, ← Matrix.mul_assoc (turn T).transpose, t2, Matrix.one_mul]
    simp only [Matrix.mul_assoc]
  funext d v
  rw [← turnM_apply, ← key]

/-- C94, gradients of every scheme. -/
theorem C94_gradients (gs : GradScheme) {old old' : ℕ → Gr} (ho : ∀ i, D.G.m.nelem ≤ i → i < D.G.rows → old' i = T.gr (old i)) {i : ℕ} (hi : i < D.G.rows) :
    D'.gradients gs u' ug' old' i = T.gr (D.gradients gs u ug old i) := by
  unfold Disc.gradients
  rw [h.nelem]
  split_ifs with hn
  · cases gs with
    | zero => exact (gr_zero T).symm
    | greenGauss => exact h.C94_greenGauss hok hu hg
    | wls => exact h.C94_wls hok hu hg
  · exact ho i (by omega) hi

end Moved
end FV
end FVENS
