import Verif.FV.Residual

/-!
# Face values of the MUSCL reconstruction lie between the cell values, up to a fixed amount (C47)
-/

namespace FVENS
namespace FV

open Msh

/-- Largest overshoot: an eighth of the root of the limiter's constant `eps = 1e-8`, src/spatial/musclreconstruction.cpp:87-92. -/
noncomputable def overshoot : ℝ := 1 / 80000

theorem vanAlbada_neg (a b : ℝ) : vanAlbada (-a) (-b) = vanAlbada a b := by
  unfold vanAlbada; simp

/-- Right states are left states seen from the other side. -/
theorem musclR_eq (ui uj d phi : ℝ) : Geo.musclR ui uj d phi = Geo.musclL uj ui (-d) phi := by
  unfold Geo.musclR Geo.musclL; ring

theorem vanAlbada_mul_le {a b : ℝ} (ha : 0 ≤ a) (hb : 0 ≤ b) : vanAlbada a b * a ≤ 2 * b + 1 / 20000 := by
  have hd : 0 < a * a + b * b + 1e-8 := by nlinarith [mul_self_nonneg a, mul_self_nonneg b]
  have hn : 0 ≤ 2 * a * b + 1e-8 := by nlinarith [mul_nonneg ha hb]
  have e : vanAlbada a b = (2 * a * b + 1e-8) / (a * a + b * b + 1e-8) := by
    unfold vanAlbada
    simp only
    rw [if_neg (not_lt.2 (div_nonneg hn hd.le))]
  rw [e, div_mul_eq_mul_div, div_le_iff₀ hd]
  nlinarith [sq_nonneg (a - 1 / 10000), mul_nonneg hb (mul_self_nonneg b), mul_self_nonneg b]

theorem vanAlbada_mul_ge {a b : ℝ} (hb : 0 ≤ b) : -(1 / 20000) ≤ vanAlbada a b * a := by
  have hd : 0 < a * a + b * b + 1e-8 := by nlinarith [mul_self_nonneg a, mul_self_nonneg b]
  unfold vanAlbada
  simp only
  split_ifs with h
  · norm_num
  · rw [div_mul_eq_mul_div, le_div_iff₀ hd]
    nlinarith [sq_nonneg (a + 1 / 10000), mul_nonneg (mul_self_nonneg a) hb, mul_self_nonneg b]

theorem step_bounds {a b : ℝ} (hb : 0 ≤ b) :
    -overshoot ≤ vanAlbada a b / 4 * ((1 - 1 / 3 * vanAlbada a b) * a + (1 + 1 / 3 * vanAlbada a b) * b) ∧
      vanAlbada a b / 4 * ((1 - 1 / 3 * vanAlbada a b) * a + (1 + 1 / 3 * vanAlbada a b) * b) ≤ b + overshoot := by
  obtain ⟨h0, h1⟩ := C47_vanAlbada a b
  unfold overshoot
  have e : vanAlbada a b / 4 * ((1 - 1 / 3 * vanAlbada a b) * a + (1 + 1 / 3 * vanAlbada a b) * b) =
      1 / 4 * (1 - 1 / 3 * vanAlbada a b) * (vanAlbada a b * a) + 1 / 4 * (vanAlbada a b * (1 + 1 / 3 * vanAlbada a b)) * b := by ring
  have hq0 : 0 ≤ 1 - 1 / 3 * vanAlbada a b := by linarith
  have hq1 : 1 - 1 / 3 * vanAlbada a b ≤ 1 := by linarith
  have hr0 : 0 ≤ vanAlbada a b * (1 + 1 / 3 * vanAlbada a b) := mul_nonneg h0 (by linarith)
  have hr1 : vanAlbada a b * (1 + 1 / 3 * vanAlbada a b) ≤ 4 / 3 := by nlinarith
  rw [e]
  set q := 1 - 1 / 3 * vanAlbada a b
  set r := vanAlbada a b * (1 + 1 / 3 * vanAlbada a b)
  have hrb0 := mul_nonneg hr0 hb
  have hrb1 := mul_le_mul_of_nonneg_right hr1 hb
  rcases le_total 0 a with ha | ha
  · have k1 := vanAlbada_mul_le ha hb
    have k0 := mul_nonneg h0 ha
    have k2 := mul_nonneg hq0 k0
    have k3 := mul_le_mul_of_nonneg_right hq1 k0
    constructor <;> nlinarith
  · have k1 := vanAlbada_mul_ge (a := a) hb
    have k0 := mul_nonpos_of_nonneg_of_nonpos h0 ha
    have k2 := mul_nonpos_of_nonneg_of_nonpos hq0 k0
    have k3 := mul_le_mul_of_nonpos_right hq1 k0
    constructor <;> nlinarith

theorem musclL_bounds (ui uj d : ℝ) : min ui uj - overshoot ≤ Geo.musclL ui uj d (vanAlbada d (uj - ui)) ∧
    Geo.musclL ui uj d (vanAlbada d (uj - ui)) ≤ max ui uj + overshoot := by
  unfold Geo.musclL
  rcases le_total ui uj with h | h
  · obtain ⟨h1, h2⟩ := step_bounds (a := d) (b := uj - ui) (by linarith)
    rw [min_eq_left h, max_eq_right h]
    constructor <;> linarith
  · obtain ⟨h1, h2⟩ := step_bounds (a := -d) (b := -(uj - ui)) (by linarith)
    rw [vanAlbada_neg] at h1 h2
    rw [min_eq_right h, max_eq_left h]
    constructor <;> nlinarith

theorem musclR_bounds (ui uj d : ℝ) : min ui uj - overshoot ≤ Geo.musclR ui uj d (vanAlbada d (uj - ui)) ∧
    Geo.musclR ui uj d (vanAlbada d (uj - ui)) ≤ max ui uj + overshoot := by
  have := musclL_bounds uj ui (-d)
  rw [musclR_eq, show vanAlbada d (uj - ui) = vanAlbada (-d) (ui - uj) by rw [← vanAlbada_neg]; ring_nf, min_comm, max_comm]
  exact this

/-- C47: with MUSCL the face values lie between the two adjacent values (cells, received ghost cells or boundary ghost states), up to 1.25e-5 in absolute terms, for any
gradients on any mesh. -/
theorem C47_muscl {D : Disc} (h : D.G.Ok) {u ug : ℕ → ℝ} {g : ℕ → Fin 2 → ℝ} {a b : Bool × ℕ → ℝ} (hb : D.recon1 .muscl u ug g a = some b) {k : ℕ} (hk : k < D.G.nface) :
    (min (u (D.G.face k).left) (D.G.ur u ug k) - overshoot ≤ b (true, k) ∧ b (true, k) ≤ max (u (D.G.face k).left) (D.G.ur u ug k) + overshoot) ∧
    (D.G.inner k → min (u (D.G.face k).left) (D.G.ur u ug k) - overshoot ≤ b (false, k) ∧
      b (false, k) ≤ max (u (D.G.face k).left) (D.G.ur u ug k) + overshoot) := by
  obtain ⟨k1, k2, k3, k4, k5⟩ := h.kind hk
  have hLr : (D.G.face k).left < D.G.rows := by unfold Geo.rows; omega
  simp only [Disc.recon1, Disc.faceArr] at hb
  split_ifs at hb
  rw [← Option.some.inj hb]
  simp only [hk, if_true, Bool.false_eq_true, if_false]
  by_cases hbd : k < D.G.m.nbface
  · have hni : ¬ D.G.inner k := fun hin => by have := hin.1; omega
    refine ⟨?_, fun hin => absurd hin hni⟩
    simp only [Geo.musclFace, rd, hLr, hbd, if_true, Option.bind_some, Option.getD_some, Geo.ur]
    exact musclL_bounds _ _ _
  · have hRr : (D.G.face k).right < D.G.rows := k5 (by omega)
    simp only [Geo.musclFace, rd, hLr, hbd, hRr, if_true, if_false, Option.bind_some, Option.map_some, Option.getD_some, Geo.ur]
    exact ⟨musclL_bounds _ _ _, fun _ => musclR_bounds _ _ _⟩

/-- The exact claim fails: between two cells of equal value, with a small gradient, the face value exceeds both. -/
theorem C47_muscl_exact_refuted : ¬ ∀ ui uj d : ℝ, Geo.musclL ui uj d (vanAlbada d (uj - ui)) ≤ max ui uj := by
  intro h
  have := h 1 1 (1 / 10000)
  norm_num [Geo.musclL, vanAlbada] at this

/-- Values 1 and 3 beside a face, upstream difference 2: the face value is 2, half-way. -/
example : Geo.musclL 1 3 2 (vanAlbada 2 (3 - 1)) = 2 := by norm_num [Geo.musclL, vanAlbada]

end FV
end FVENS
