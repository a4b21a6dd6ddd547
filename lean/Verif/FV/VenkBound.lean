import Verif.FV.Length

/-! What the smoothing term of the Venkatakrishnan limiter (src/spatial/limitedlinearreconstruction.cpp:208-268) does: it bounds how far the face
values may leave the range of the neighbouring values, and it switches the limiter off where the solution varies little. Both bounds are
in terms of the length of the longest edge of the cell. -/

namespace FVENS
namespace FV

open Msh

/-- Term of one face. -/
private noncomputable def vDen (eps2 dp d : ℝ) : ℝ := dp * dp + dp * d + 2 * d * d + eps2
private noncomputable def vPhi (eps2 dp d : ℝ) : ℝ := (dp * dp + 2 * dp * d + eps2) / vDen eps2 dp d
private noncomputable def vSide (mn mx d : ℝ) : ℝ := if d < 0 then mn else mx

theorem venkLim_spec (eps2 mn mx : ℝ) (ds : List ℝ) :
    venkLim eps2 mn mx ds ≤ 1 ∧ (∀ d ∈ ds, vDen eps2 (vSide mn mx d) d ≠ 0 → venkLim eps2 mn mx ds ≤ vPhi eps2 (vSide mn mx d) d) ∧
    (venkLim eps2 mn mx ds = 1 ∨ ∃ d ∈ ds, vDen eps2 (vSide mn mx d) d ≠ 0 ∧ venkLim eps2 mn mx ds = vPhi eps2 (vSide mn mx d) d) := by
  unfold venkLim
  induction ds using List.reverseRecOn with
  | nil => simp
  | append_singleton ds d ih =>
    rw [List.foldl_append, List.foldl_cons, List.foldl_nil]
    simp only
    generalize List.foldl _ (1 : ℝ) ds = l at ih ⊢
    change (if vDen eps2 (vSide mn mx d) d ≠ 0 ∧ vPhi eps2 (vSide mn mx d) d < l then vPhi eps2 (vSide mn mx d) d else l) ≤ 1 ∧ _ ∧ _
    obtain ⟨i0, i1, i2⟩ := ih
    change _ ∧ (∀ e ∈ ds ++ [d], _ → (if vDen eps2 (vSide mn mx d) d ≠ 0 ∧ vPhi eps2 (vSide mn mx d) d < l then vPhi eps2 (vSide mn mx d) d else l) ≤ _) ∧
      ((if vDen eps2 (vSide mn mx d) d ≠ 0 ∧ vPhi eps2 (vSide mn mx d) d < l then vPhi eps2 (vSide mn mx d) d else l) = 1 ∨ ∃ e ∈ ds ++ [d], _ ∧
        (if vDen eps2 (vSide mn mx d) d ≠ 0 ∧ vPhi eps2 (vSide mn mx d) d < l then vPhi eps2 (vSide mn mx d) d else l) = _)
    split_ifs with hlt
    · refine ⟨hlt.2.le.trans i0, fun e he hn => ?_, .inr ⟨d, by simp, hlt.1, rfl⟩⟩
      rcases List.mem_append.1 he with he | he
      · exact hlt.2.le.trans (i1 e he hn)
      · rw [List.mem_singleton] at he; subst he; exact le_rfl
    · refine ⟨i0, fun e he hn => ?_, ?_⟩
      · rcases List.mem_append.1 he with he | he
        · exact i1 e he hn
        · rw [List.mem_singleton] at he; subst he
          exact not_lt.1 fun h => hlt ⟨hn, h⟩
      · rcases i2 with i2 | ⟨e, he, i2⟩
        · exact .inl i2
        · exact .inr ⟨e, by simp [he], i2⟩

private theorem over {s p d : ℝ} (hs : 0 ≤ s) (hp : 0 ≤ p) (hd : 0 < d) : vPhi (8 * s ^ 2) p d * d ≤ p + s := by
  have h : 0 < vDen (8 * s ^ 2) p d := by unfold vDen; positivity
  have e : vPhi (8 * s ^ 2) p d * d = (p * p + 2 * p * d + 8 * s ^ 2) * d / vDen (8 * s ^ 2) p d := by unfold vPhi; ring
  rw [e, div_le_iff₀ h]
  unfold vDen
  have : (p + s) * (p * p + p * d + 2 * d * d + 8 * s ^ 2) - (p * p + 2 * p * d + 8 * s ^ 2) * d =
      p ^ 3 + 8 * s ^ 2 * p + s * p ^ 2 + s * p * d + 2 * s * (d - 2 * s) ^ 2 := by ring
  have : 0 ≤ p ^ 3 + 8 * s ^ 2 * p + s * p ^ 2 + s * p * d + 2 * s * (d - 2 * s) ^ 2 := by positivity
  linarith

private theorem vPhi_neg (e p d : ℝ) : vPhi e (-p) (-d) = vPhi e p d := by
  unfold vPhi vDen
  rw [show -p * -p + 2 * -p * -d + e = p * p + 2 * p * d + e by ring, show -p * -p + -p * -d + 2 * -d * -d + e = p * p + p * d + 2 * d * d + e by ring]

/-- C47: the limited differences leave the range of the differences to the neighbours by at most √(eps2 / 8). -/
theorem C47_venkatakrishnan_overshoot_bound {eps2 mn mx : ℝ} (he : 0 ≤ eps2) (h1 : mn ≤ 0) (h2 : 0 ≤ mx) (diffs : List ℝ) :
    ∀ d ∈ diffs, mn - √(eps2 / 8) ≤ venkLim eps2 mn mx diffs * d ∧ venkLim eps2 mn mx diffs * d ≤ mx + √(eps2 / 8) := by
  intro d hd
  obtain ⟨_, l1, _⟩ := venkLim_spec eps2 mn mx diffs
  have l0 := (C47_venkatakrishnan he h1 h2 diffs).1
  set s := √(eps2 / 8) with hs
  have s0 : 0 ≤ s := Real.sqrt_nonneg _
  have es : 8 * s ^ 2 = eps2 := by rw [hs, Real.sq_sqrt (by positivity)]; ring
  rcases lt_trichotomy d 0 with h | h | h
  · have e : vSide mn mx d = mn := by unfold vSide; rw [if_pos h]
    have hn : vDen eps2 (vSide mn mx d) d ≠ 0 := by
      rw [e]; unfold vDen
      have := mul_pos_of_neg_of_neg h h
      nlinarith [mul_nonneg_of_nonpos_of_nonpos h1 h.le, mul_self_nonneg mn]
    have a := l1 d hd hn
    have b := over s0 (neg_nonneg.2 h1) (neg_pos.2 h)
    rw [vPhi_neg, es] at b
    rw [e] at a
    constructor
    · nlinarith
    · nlinarith
  · rw [h]; constructor <;> linarith
  · have e : vSide mn mx d = mx := by unfold vSide; rw [if_neg (not_lt.2 h.le)]
    have hn : vDen eps2 (vSide mn mx d) d ≠ 0 := by
      rw [e]; unfold vDen
      have := mul_pos h h
      nlinarith [mul_nonneg h2 h.le, mul_self_nonneg mx]
    have a := l1 d hd hn
    have b := over s0 h2 h
    rw [es] at b
    rw [e] at a
    constructor
    · nlinarith [mul_nonneg l0 h.le]
    · nlinarith

/-- C47: where neither the neighbours nor the unlimited differences vary by more than `δ`, the limiter differs from one by at most 2 δ² / eps2. -/
theorem C47_venkatakrishnan_smooth {eps2 mn mx δ : ℝ} (he : 0 < eps2) (h1 : mn ≤ 0) (h2 : 0 ≤ mx) {diffs : List ℝ} (hd : ∀ d ∈ diffs, |d| ≤ δ) :
    1 - 2 * δ ^ 2 / eps2 ≤ venkLim eps2 mn mx diffs := by
  obtain ⟨_, _, l⟩ := venkLim_spec eps2 mn mx diffs
  have q : 0 ≤ 2 * δ ^ 2 / eps2 := by positivity
  rcases l with l | ⟨d, hm, hn, l⟩
  · rw [l]; linarith
  · rw [l]
    have hs : 0 ≤ vSide mn mx d * d := by
      unfold vSide; split_ifs with h
      · exact mul_nonneg_of_nonpos_of_nonpos h1 h.le
      · exact mul_nonneg h2 (not_lt.1 h)
    generalize vSide mn mx d = p at hs hn
    have hp : eps2 ≤ vDen eps2 p d := by unfold vDen; nlinarith [mul_self_nonneg p, mul_self_nonneg d]
    have hd2 : d ^ 2 ≤ δ ^ 2 := by rw [← sq_abs d]; exact pow_le_pow_left₀ (abs_nonneg d) (hd d hm) 2
    have e : vPhi eps2 p d = 1 - (2 * d ^ 2 - p * d) / vDen eps2 p d := by
      unfold vPhi; rw [eq_sub_iff_add_eq, ← add_div, div_eq_one_iff_eq hn]; unfold vDen; ring
    rw [e]
    have : (2 * d ^ 2 - p * d) / vDen eps2 p d ≤ 2 * δ ^ 2 / eps2 := div_le_div₀ (by positivity) (by linarith) he hp
    linarith

namespace Geo

variable {G : Geo}

/-- Some face of a cell is the given one. -/
private theorem hasFace (h : G.Ok) {k : ℕ} (hk : k < G.nface) {i : ℕ} (ho : (G.face k).left = i ∨ (G.face k).right = i) (hi : i < G.m.nelem) :
    ∃ f, f < G.m.nnode i ∧ G.cface i f = k := by
  obtain ⟨q1, q2, _⟩ := face_local h.conf h.topo (faceAt_mem (faces := G.s.faces) hk)
  have : ∃ f, IsFace G.m (i, f) ∧ edge G.m (i, f) = s((G.face k).n0, (G.face k).n1) := by
    rcases ho with rfl | rfl
    · exact q1
    · exact q2 hi
  obtain ⟨f, hf, he⟩ := this
  refine ⟨f, hf.2, ?_⟩
  have := ((C71_elemface h.conf h.topo (x := (i, f)) hf).2 k).2 ⟨_, faceAt_get hk, he.symm, ho⟩
  unfold cface; simp only at this; rw [this]; rfl

/-- What is written for a cell at a face. -/
private theorem written (h : G.Ok) {K : ℝ} {u : ℕ → ℝ} {g gr : ℕ → Fin 2 → ℝ} {a b : Bool × ℕ → ℝ} (hb : G.venkatakrishnan K u g gr a = some b)
    {k : ℕ} (hk : k < G.nface) :
    (∀ i < G.m.nelem, (duRange G.rows u i (G.nbrs i)).isSome) ∧
    ∀ sd i, (sd = true ∧ i = (G.face k).left) ∨ (sd = false ∧ G.inner k ∧ i = (G.face k).right) → i < G.m.nelem ∧ (∃ f, f < G.m.nnode i ∧ G.cface i f = k) ∧
      b (sd, k) = u i + venkLim ((K * G.clength i) ^ 3) ((duRange G.rows u i (G.nbrs i)).getD (0, 0)).1 ((duRange G.rows u i (G.nbrs i)).getD (0, 0)).2
        (G.diffs u g gr i) * (linExt (u i) (g i) 1 (gr k) (G.rc i) - u i) := by
  unfold venkatakrishnan at hb
  split_ifs at hb with hall
  refine ⟨hall, fun sd i hs => ?_⟩
  obtain ⟨k1, k2, k3, k4, k5⟩ := h.kind hk
  obtain ⟨w1, w2, _⟩ := cellWrite_spec h (fun i k =>
      let p := (duRange G.rows u i (G.nbrs i)).getD (0, 0)
      linExt (u i) (g i) (venkLim ((K * G.clength i) ^ 3) p.1 p.2 (G.diffs u g gr i)) (gr k) (G.rc i)) a hk
  rw [Option.some.inj hb] at w1 w2
  rcases hs with ⟨rfl, rfl⟩ | ⟨rfl, hin, rfl⟩
  · exact ⟨k1, hasFace h hk (.inl rfl) k1, by rw [w1]; dsimp only; rw [linExt_lim]⟩
  · exact ⟨k4.1 hin, hasFace h hk (.inr rfl) (k4.1 hin), by rw [w2 hin]; dsimp only; rw [linExt_lim]⟩

private theorem mem_diffs (h : G.Ok) {u : ℕ → ℝ} {g gr : ℕ → Fin 2 → ℝ} {i f k : ℕ} (hi : i < G.m.nelem) (hf : f < G.m.nnode i) (hk : G.cface i f = k) :
    linExt (u i) (g i) 1 (gr k) (G.rc i) - u i ∈ G.diffs u g gr i := by
  unfold diffs
  rw [List.mem_map]
  exact ⟨f, List.mem_range.2 (by rw [h.conf.lin.nf i hi]; exact hf), by rw [hk]⟩

/-- C47: a face value of Venkatakrishnan reconstruction leaves the range of the values in the cell and its neighbours by at most √((K L)³ / 8), `L` being
a bound for the edges of the cell. `sd` tells the side of the face, `i` is the cell there. -/
theorem C47_venkatakrishnan_range (h : G.Ok) {K L : ℝ} (hK : 0 ≤ K) {u : ℕ → ℝ} {g gr : ℕ → Fin 2 → ℝ} {a b : Bool × ℕ → ℝ}
    (hb : G.venkatakrishnan K u g gr a = some b) {k : ℕ} (hk : k < G.nface) {sd : Bool} {i : ℕ}
    (hs : (sd = true ∧ i = (G.face k).left) ∨ (sd = false ∧ G.inner k ∧ i = (G.face k).right))
    (hL : ∀ f < G.m.nnode i, edgeLen G i f ≤ L) :
    (∃ j ∈ i :: G.nbrs i, u j - √((K * L) ^ 3 / 8) ≤ b (sd, k)) ∧ ∃ j ∈ i :: G.nbrs i, b (sd, k) ≤ u j + √((K * L) ^ 3 / 8) := by
  obtain ⟨hall, hw⟩ := written h hb hk
  obtain ⟨hi, ⟨f, hf, hck⟩, hx⟩ := hw sd i hs
  obtain ⟨p, hp⟩ := Option.isSome_iff_exists.1 (hall i hi)
  rw [hp] at hx
  simp only [Option.getD_some] at hx
  obtain ⟨p1, p2, p3, p4, p5⟩ := duRange_spec hp
  obtain ⟨_, f', hf', ec⟩ := C47_length (G := G) (i := i) (by omega)
  have c0 : 0 ≤ G.clength i := Real.sqrt_nonneg _
  have cL : G.clength i ≤ L := ec ▸ hL f' hf'
  have m3 : (K * G.clength i) ^ 3 ≤ (K * L) ^ 3 := pow_le_pow_left₀ (mul_nonneg hK c0) (mul_le_mul_of_nonneg_left cL hK) 3
  have sq : √((K * G.clength i) ^ 3 / 8) ≤ √((K * L) ^ 3 / 8) := Real.sqrt_le_sqrt (by linarith)
  obtain ⟨b1, b2⟩ := C47_venkatakrishnan_overshoot_bound (pow_nonneg (mul_nonneg hK c0) 3) p1 p2 (G.diffs u g gr i) _ (mem_diffs h (u := u) (g := g) (gr := gr) hi hf hck)
  constructor
  · rcases p4 with p4 | ⟨j, hj, p4⟩
    · exact ⟨i, by simp, by linarith⟩
    · exact ⟨j, by simp [hj], by linarith⟩
  · rcases p5 with p5 | ⟨j, hj, p5⟩
    · exact ⟨i, by simp, by linarith⟩
    · exact ⟨j, by simp [hj], by linarith⟩

/-- C47: where the unlimited reconstruction of a cell varies by at most `δ` over its faces, and some edge of the cell has at least the length `l`,
the face value of Venkatakrishnan reconstruction differs from the unlimited one by at most 2 δ³ / (K l)³. -/
theorem C47_venkatakrishnan_inactive (h : G.Ok) {K l δ : ℝ} (hK : 0 < K) (hl : 0 < l) {u : ℕ → ℝ} {g gr : ℕ → Fin 2 → ℝ} {a b : Bool × ℕ → ℝ}
    (hb : G.venkatakrishnan K u g gr a = some b) {k : ℕ} (hk : k < G.nface) {sd : Bool} {i : ℕ}
    (hs : (sd = true ∧ i = (G.face k).left) ∨ (sd = false ∧ G.inner k ∧ i = (G.face k).right))
    (hL : ∃ f < G.m.nnode i, l ≤ edgeLen G i f)
    (hδ : ∀ f < G.m.nnode i, |linExt (u i) (g i) 1 (gr (G.cface i f)) (G.rc i) - u i| ≤ δ) :
    |b (sd, k) - linExt (u i) (g i) 1 (gr k) (G.rc i)| ≤ 2 * δ ^ 3 / (K * l) ^ 3 := by
  obtain ⟨hall, hw⟩ := written h hb hk
  obtain ⟨hi, ⟨f, hf, hck⟩, hx⟩ := hw sd i hs
  obtain ⟨p, hp⟩ := Option.isSome_iff_exists.1 (hall i hi)
  rw [hp] at hx
  simp only [Option.getD_some] at hx
  obtain ⟨p1, p2, p3, p4, p5⟩ := duRange_spec hp
  obtain ⟨f', hf', hl'⟩ := hL
  have lc : l ≤ G.clength i := hl'.trans ((C47_length (G := G) (i := i) (by omega)).1 f' hf')
  have k0 : 0 < K * l := mul_pos hK hl
  have m3 : (K * l) ^ 3 ≤ (K * G.clength i) ^ 3 := pow_le_pow_left₀ k0.le (mul_le_mul_of_nonneg_left lc hK.le) 3
  have e0 : 0 < (K * l) ^ 3 := pow_pos k0 3
  have hdi : ∀ d ∈ G.diffs u g gr i, |d| ≤ δ := fun d hd => by
    unfold diffs at hd
    obtain ⟨f, hf, rfl⟩ := List.mem_map.1 hd
    exact hδ f (by rw [← h.conf.lin.nf i hi]; exact List.mem_range.1 hf)
  have v1 := C47_venkatakrishnan_smooth (e0.trans_le m3) p1 p2 hdi
  have v2 := (C47_venkatakrishnan (e0.trans_le m3).le p1 p2 (G.diffs u g gr i)).2
  have hd := hδ f hf
  rw [hck] at hd
  have d0 : 0 ≤ δ := (abs_nonneg _).trans hd
  set L := venkLim ((K * G.clength i) ^ 3) p.1 p.2 (G.diffs u g gr i)
  set d := linExt (u i) (g i) 1 (gr k) (G.rc i) - u i with hdd
  have e : b (sd, k) - linExt (u i) (g i) 1 (gr k) (G.rc i) = -((1 - L) * d) := by rw [hx, hdd]; ring
  rw [e, abs_neg, abs_mul, abs_of_nonneg (by linarith : 0 ≤ 1 - L)]
  have q : 2 * δ ^ 2 / (K * G.clength i) ^ 3 ≤ 2 * δ ^ 2 / (K * l) ^ 3 := div_le_div_of_nonneg_left (by positivity) e0 m3
  calc (1 - L) * |d| ≤ 2 * δ ^ 2 / (K * l) ^ 3 * δ := mul_le_mul (by linarith) hd (abs_nonneg d) (by positivity)
    _ = 2 * δ ^ 3 / (K * l) ^ 3 := by ring

end Geo

/-- Concrete cases: with eps2 = 8 the overshoot at an extremum stays below 1, and differences of 1/10 are limited by at most 1/400. -/
example := C47_venkatakrishnan_overshoot_bound (eps2 := 8) (mn := 0) (mx := 0) (by norm_num) le_rfl le_rfl [3, -5]
example := C47_venkatakrishnan_smooth (eps2 := 8) (mn := 0) (mx := 1) (δ := 1 / 10) (by norm_num) le_rfl (by norm_num) (diffs := [1 / 10, -1 / 20])
  (by intro d hd; simp at hd; rcases hd with rfl | rfl <;> norm_num [abs_le])

theorem Geo.isle_faces : Geo.isleGeo.nface = 8 ∧ (Geo.isleGeo.face 0).left = 0 := by
  have hf : Geo.isleGeo.s.faces = _ := Geo.isle_topological.choose_spec.2
  refine ⟨by unfold Geo.nface; rw [hf]; rfl, ?_⟩
  unfold Geo.face; rw [hf]; rfl

/-- The cells of `isle` have edges of length 1 and √(1/2). -/
theorem Geo.isle_edges : ∀ f < 3, edgeLen Geo.isleGeo 0 f ≤ 1 := by
  intro f hf
  have h2 : (√2)⁻¹ ≤ (1 : ℝ) := inv_le_one_of_one_le₀ (Real.one_le_sqrt.2 (by norm_num))
  rcases (by omega : f = 0 ∨ f = 1 ∨ f = 2) with rfl | rfl | rfl <;>
    norm_num [h2, edgeLen, Geo.isleGeo, Geo.isle, Geo.cross, triMesh, Real.sqrt_le_one]

/-- Concrete case: for any data on `isle` and K = 2 the value of cell 0 at the first face is at most 1 above the largest value in the cell and its
neighbours. -/
example (u : ℕ → ℝ) (g gr : ℕ → Fin 2 → ℝ) (a : Bool × ℕ → ℝ) : ∃ b, Geo.isleGeo.venkatakrishnan 2 u g gr a = some b ∧
    ∃ j ∈ 0 :: Geo.isleGeo.nbrs 0, b (true, 0) ≤ u j + 1 := by
  obtain ⟨b, hb⟩ := Option.isSome_iff_exists.1 ((Geo.C48_exact Geo.isleGeo_ok 2 u g gr a).2.2 rfl)
  have := (Geo.C47_venkatakrishnan_range Geo.isleGeo_ok (K := 2) (L := 1) (by norm_num) hb (k := 0) (by rw [Geo.isle_faces.1]; norm_num)
    (.inl ⟨rfl, Geo.isle_faces.2.symm⟩) Geo.isle_edges).2
  norm_num at this
  exact ⟨b, hb, by simpa using this⟩

/-- Concrete case: with K = 2 and a reconstruction that changes by 1 towards the faces, the limited value differs from the unlimited one by at most a
quarter. -/
example (u : ℕ → ℝ) (a : Bool × ℕ → ℝ) : ∃ b, Geo.isleGeo.venkatakrishnan 2 u (fun _ => ![0, 6]) (fun _ => ![1 / 2, 0]) a = some b ∧
    |b (true, 0) - (u 0 - 1)| ≤ 1 / 4 := by
  obtain ⟨b, hb⟩ := Option.isSome_iff_exists.1 ((Geo.C48_exact Geo.isleGeo_ok 2 u (fun _ => ![0, 6]) (fun _ => ![1 / 2, 0]) a).2.2 rfl)
  have e : ∀ k, linExt (u 0) ![0, 6] 1 ((fun _ : ℕ => ![1 / 2, (0 : ℝ)]) k) (Geo.isleGeo.rc 0) = u 0 - 1 := fun k => by
    simp [linExt, Geo.isleGeo]; ring
  have := Geo.C47_venkatakrishnan_inactive Geo.isleGeo_ok (K := 2) (l := 1) (δ := 1) (by norm_num) (by norm_num) hb (k := 0) (by rw [Geo.isle_faces.1]; norm_num)
    (.inl ⟨rfl, Geo.isle_faces.2.symm⟩) ⟨0, by show 0 < 3; omega, by norm_num [edgeLen, Geo.isleGeo, Geo.isle, Geo.cross, triMesh]⟩
    (fun f _ => by rw [e (Geo.isleGeo.cface 0 f)]; norm_num)
  rw [e 0] at this
  exact ⟨b, hb, by norm_num at this ⊢; exact this⟩

end FV
end FVENS
