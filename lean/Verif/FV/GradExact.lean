import Mathlib.Algebra.BigOperators.Field
import Verif.FV.Grad
import Verif.Par.Positive

/-!
# Green–Gauss gradients of linear fields (C45)
-/

namespace FVENS
namespace FV

open Msh Finset

/-- Specification: `q` lies on the segment between `p` and `r`, inside. -/
def Between (p q r : Fin 2 → ℝ) : Prop := p ≠ r ∧ ∃ t, 0 < t ∧ t < 1 ∧ ∀ d, q d = (1 - t) * p d + t * r d

section moment
variable (m : Mesh)

/-- Component of the midpoint times normal times length. -/
noncomputable def mn (e d : Fin 2) (p q : ℕ) : ℝ := (m.coords p e + m.coords q e) / 2 * nlen m d p q

theorem mn_odd (e d : Fin 2) (p q : ℕ) : mn m e d q p = - mn m e d p q := by
  unfold mn; rw [nlen_odd m d p q]; ring

theorem mn_cell {m : Mesh} (hz : NoZeroFace m) {i : ℕ} (hi : i < m.nelem) (e d : Fin 2) :
    cellSum m (mn m e d) i = if e = d then polyArea (m.nnode i) fun j => m.coords (m.inpoel i j) else 0 := by
  let n := m.nnode i
  let x : ℕ → Fin 2 → ℝ := fun j => m.coords (m.inpoel i j)
  have h : cellSum m (mn m e d) i = ∑ f ∈ range n, (x f e + x ((f + 1) % n) e) / 2 * (![x ((f + 1) % n) 1 - x f 1, x f 0 - x ((f + 1) % n) 0] : Fin 2 → ℝ) d := by
    unfold cellSum
    refine sum_congr rfl fun f hf => ?_
    rw [mn, nlen, nrm_len (hz (i, f) ⟨hi, by simpa using hf⟩)]
  have key : ∀ g : ℕ → ℝ, ∑ f ∈ range n, (g ((f + 1) % n) - g f) = 0 := cyclic_sum n
  rw [h]
  unfold polyArea
  fin_cases e <;> fin_cases d
  · rw [if_pos rfl, ← add_zero ((∑ f ∈ range n, _) / 2), ← key fun f => x f 0 * x f 1 / 2, sum_div, ← sum_add_distrib]
    refine sum_congr rfl fun f _ => ?_
    simp [x, n]; ring
  · rw [if_neg (by decide), ← key fun f => - (x f 0 * x f 0 / 2)]
    refine sum_congr rfl fun f _ => ?_
    simp; ring
  · rw [if_neg (by decide), ← key fun f => x f 1 * x f 1 / 2]
    refine sum_congr rfl fun f _ => ?_
    simp; ring
  · rw [if_pos rfl, ← add_zero ((∑ f ∈ range n, _) / 2), ← key fun f => - (x f 0 * x f 1 / 2), sum_div, ← sum_add_distrib]
    refine sum_congr rfl fun f _ => ?_
    simp [x, n]; ring

end moment

namespace Geo
variable {nv : ℕ} {G : Geo}

/-- Integral of the coordinates times the normal over the faces of a cell. -/
theorem moment_touch (h : G.Ok) {i : ℕ} (hi : i < G.m.nelem) (e d : Fin 2) :
    ∑ k ∈ (range G.nface).filter (G.touches i), G.sgn i k * (G.mid k e * (G.len k * G.nrm k d)) =
      if e = d then polyArea (G.m.nnode i) (fun j => G.m.coords (G.m.inpoel i j)) else 0 := by
  have hcl := (signed_sum_faces h.conf h.topo (mn_odd G.m e d) hi).trans (mn_cell h.nz hi e d)
  have hsum : (G.s.faces.map (signed (mn G.m e d) i)).sum = ∑ k ∈ range G.nface, signed (mn G.m e d) i (G.face k) := by
    unfold nface face faceAt
    generalize G.s.faces = L
    induction L using List.reverseRecOn with
    | nil => simp
    | append_singleton L F ih =>
      rw [List.map_append, List.sum_append, ih, List.length_append, List.length_singleton, sum_range_succ]
      congr 1
      · exact sum_congr rfl fun k hk => by simp [List.getD, List.getElem?_append_left (mem_range.1 hk)]
      · simp [List.getD]
  rw [← hcl, hsum, sum_filter]
  refine sum_congr rfl fun k hk => ?_
  obtain ⟨_, h2, _⟩ := h.kind (mem_range.1 hk)
  unfold touches signed sgn mn nlen len nrm mid fMid
  by_cases hl : (G.face k).left = i
  · have : (G.face k).right ≠ i := fun e => h2 (hl.trans e.symm)
    simp [hl, this, mul_comm]
  · by_cases hr : (G.face k).right = i
    · simp [hl, hr, mul_comm]
    · simp [hl, hr]

theorem invDist_eq (x y : Fin 2 → ℝ) : invDist x y = 1 / √((y 0 - x 0) ^ 2 + (y 1 - x 1) ^ 2) := by
  unfold invDist; congr 2; ring

/-- The face value of a linear field is exact where the midpoint lies between the centres. -/
theorem ut_linear {k : ℕ} {t : ℝ} (hx : G.xl k ≠ G.xr k) (t0 : 0 < t) (t1 : t < 1) (ht : ∀ d, G.mid k d = (1 - t) * G.xl k d + t * G.xr k d) {c g0 g1 : ℝ}
    {u ug : ℕ → Fin nv → ℝ} {j : Fin nv} (hl : u (G.face k).left j = c + g0 * G.xl k 0 + g1 * G.xl k 1) (hr : G.ur u ug k j = c + g0 * G.xr k 0 + g1 * G.xr k 1) :
    G.ut u ug k j = (c + g0 * G.mid k 0 + g1 * G.mid k 1) * G.len k := by
  have hpos : 0 < √((G.xr k 0 - G.xl k 0) ^ 2 + (G.xr k 1 - G.xl k 1) ^ 2) := by
    refine Real.sqrt_pos.2 (lt_of_le_of_ne (by positivity) fun e => hx (funext fun d => ?_))
    have a0 : G.xr k 0 - G.xl k 0 = 0 := by nlinarith [pow_two_nonneg (G.xr k 0 - G.xl k 0), pow_two_nonneg (G.xr k 1 - G.xl k 1)]
    have a1 : G.xr k 1 - G.xl k 1 = 0 := by nlinarith [pow_two_nonneg (G.xr k 0 - G.xl k 0), pow_two_nonneg (G.xr k 1 - G.xl k 1)]
    fin_cases d
    · show G.xl k 0 = G.xr k 0; linarith
    · show G.xl k 1 = G.xr k 1; linarith
  have hL : invDist (G.xl k) (G.mid k) = 1 / (t * √((G.xr k 0 - G.xl k 0) ^ 2 + (G.xr k 1 - G.xl k 1) ^ 2)) := by
    rw [invDist_eq, ht 0, ht 1, show ((1 - t) * G.xl k 0 + t * G.xr k 0 - G.xl k 0) ^ 2 + ((1 - t) * G.xl k 1 + t * G.xr k 1 - G.xl k 1) ^ 2 =
      t ^ 2 * ((G.xr k 0 - G.xl k 0) ^ 2 + (G.xr k 1 - G.xl k 1) ^ 2) by ring, Real.sqrt_mul (by positivity), Real.sqrt_sq t0.le]
  have hR : invDist (G.xr k) (G.mid k) = 1 / ((1 - t) * √((G.xr k 0 - G.xl k 0) ^ 2 + (G.xr k 1 - G.xl k 1) ^ 2)) := by
    rw [invDist_eq, ht 0, ht 1, show ((1 - t) * G.xl k 0 + t * G.xr k 0 - G.xr k 0) ^ 2 + ((1 - t) * G.xl k 1 + t * G.xr k 1 - G.xr k 1) ^ 2 =
      (1 - t) ^ 2 * ((G.xr k 0 - G.xl k 0) ^ 2 + (G.xr k 1 - G.xl k 1) ^ 2) by ring, Real.sqrt_mul (by positivity), Real.sqrt_sq (by linarith)]
  have h3 : 1 - t ≠ 0 := by linarith
  unfold ut
  rw [hl, hr, hL, hR, ht 0, ht 1]
  generalize √((G.xr k 0 - G.xl k 0) ^ 2 + (G.xr k 1 - G.xl k 1) ^ 2) = s at hpos
  congr 1
  have hs : 1 / (t * s) + 1 / ((1 - t) * s) = 1 / (t * (1 - t) * s) := by field_simp; ring
  rw [hs]
  field_simp
  ring

/-- C45: the face value of the Green–Gauss scheme is that of every linear field exactly if the face midpoint lies on the segment between the two centres. -/
theorem C45_face_value_exact_iff (ho : G.OffMid) {k : ℕ} (hk : k < G.nface) (hlen : 0 < G.len k) (hx : G.xl k ≠ G.xr k) :
    (∀ (c : ℝ) (g : Fin 2 → ℝ) (u ug : ℕ → Fin 1 → ℝ), u (G.face k).left 0 = c + g 0 * G.xl k 0 + g 1 * G.xl k 1 → G.ur u ug k 0 = c + g 0 * G.xr k 0 + g 1 * G.xr k 1 →
      G.ut u ug k 0 = (c + g 0 * G.mid k 0 + g 1 * G.mid k 1) * G.len k) ↔ Between (G.xl k) (G.mid k) (G.xr k) := by
  have h1 := invDist_pos (ho k hk).1
  have h2 := invDist_pos (ho k hk).2
  constructor
  · intro hall
    refine ⟨hx, invDist (G.xr k) (G.mid k) / (invDist (G.xl k) (G.mid k) + invDist (G.xr k) (G.mid k)), by positivity, ?_, fun d => ?_⟩
    · rw [div_lt_one (by positivity)]; linarith
    · -- a linear field whose value is the coordinate `d`
      have hlr : ∃ u ug : ℕ → Fin 1 → ℝ, u (G.face k).left 0 = G.xl k d ∧ G.ur u ug k 0 = G.xr k d := by
        by_cases hb : k < G.m.nbface
        · exact ⟨fun _ _ => G.xl k d, fun _ _ => G.xr k d, rfl, by unfold ur; rw [if_pos hb]⟩
        · by_cases hne : (G.face k).left = (G.face k).right
          · exact absurd (show G.xl k = G.xr k by unfold xl xr; rw [if_neg hb, hne]) hx
          · refine ⟨fun i _ => if i = (G.face k).left then G.xl k d else G.xr k d, 0, if_pos rfl, ?_⟩
            unfold ur
            rw [if_neg hb]
            exact if_neg (Ne.symm hne)
      obtain ⟨u, ug, e1, e2⟩ := hlr
      have := hall 0 (fun e => if e = d then 1 else 0) u ug (by rw [e1]; fin_cases d <;> simp) (by rw [e2]; fin_cases d <;> simp)
      unfold ut at this
      rw [e1, e2] at this
      have := mul_right_cancel₀ hlen.ne' this
      have e3 : G.mid k d = (0 : ℝ) + (if (0 : Fin 2) = d then 1 else 0) * G.mid k 0 + (if (1 : Fin 2) = d then 1 else 0) * G.mid k 1 := by fin_cases d <;> simp
      rw [e3, ← this]
      field_simp
      ring
  · rintro ⟨-, t, t0, t1, ht⟩ c g u ug hl hr
    exact ut_linear hx t0 t1 ht hl hr

/-- C45: Green–Gauss gradients of linear fields are exact in every cell whose face midpoints lie on the segments between its centre and those of its neighbours
(and ghosts). -/
theorem C45_greenGauss_linear_exact (h : G.Ok) {i : ℕ} (hi : i < G.m.nelem) (har : area G.m i = some (G.ar i)) (hne : G.ar i ≠ 0)
    (hb : ∀ k, k < G.nface → G.touches i k → Between (G.xl k) (G.mid k) (G.xr k)) (c : Fin nv → ℝ) (g : Fin 2 → Fin nv → ℝ) {u ug : ℕ → Fin nv → ℝ}
    (hu : ∀ i, i < G.m.nelem + G.m.nconnface → ∀ j, u i j = c j + g 0 j * G.rc i 0 + g 1 j * G.rc i 1)
    (hug : ∀ k, k < G.m.nbface → ∀ j, ug k j = c j + g 0 j * G.rcbp k 0 + g 1 j * G.rcbp k 1) :
    G.greenGauss u ug i = g := by
  have hpoly : polyArea (G.m.nnode i) (fun j => G.m.coords (G.m.inpoel i j)) = G.ar i := by
    have h34 : G.m.nnode i = 3 ∨ G.m.nnode i = 4 := by
      by_contra hc
      rw [(C23_unset_iff (m := G.m) (i := i)).2 (by omega)] at har
      cases har
    rw [C23_polygon_area h34] at har
    exact Option.some.inj har
  unfold greenGauss
  have := accum_touch h (G.ggL u ug) (G.ggR u ug) hi
  rw [show (fun (_ : ℕ) (_ : Fin 2) (_ : Fin nv) => (0 : ℝ)) = fun _ => 0 from rfl, this]
  funext d j
  rw [Finset.sum_apply, Finset.sum_apply]
  have e : ∀ k ∈ (range G.nface).filter (G.touches i),
      (if (G.face k).left = i then G.ggL u ug k else G.ggR u ug k) d j =
        1 / G.ar i * (c j * (G.sgn i k * (G.len k * G.nrm k d)) + g 0 j * (G.sgn i k * (G.mid k 0 * (G.len k * G.nrm k d))) + g 1 j * (G.sgn i k * (G.mid k 1 * (G.len k * G.nrm k d)))) := by
    intro k hk
    obtain ⟨hk, ht⟩ := mem_filter.1 hk
    have hk := mem_range.1 hk
    obtain ⟨h1, h2, h3, h4, h5⟩ := h.kind hk
    have hbt := hb k hk ht
    obtain ⟨hxx, t, t0, t1, htt⟩ := hbt
    have hut : G.ut u ug k j = (c j + g 0 j * G.mid k 0 + g 1 j * G.mid k 1) * G.len k := by
      have hul : u (G.face k).left j = c j + g 0 j * G.xl k 0 + g 1 j * G.xl k 1 := hu _ (by omega) j
      have hur : G.ur u ug k j = c j + g 0 j * G.xr k 0 + g 1 j * G.xr k 1 := by
        unfold ur xr
        split_ifs with hb
        · exact hug k hb j
        · exact hu _ (h5 (by omega)) j
      exact ut_linear hxx t0 t1 htt hul hur
    by_cases hl : (G.face k).left = i
    · simp only [hl, if_true, ggL, sgn, hut]; ring
    · have hr : (G.face k).right = i := ht.resolve_left hl
      simp only [hl, if_false, ggR, sgn, hut, hr]; ring
  rw [sum_congr rfl e, ← mul_sum, sum_add_distrib, sum_add_distrib, ← mul_sum, ← mul_sum, ← mul_sum, closed_touch h hi d, moment_touch h hi 0 d, moment_touch h hi 1 d, hpoly]
  fin_cases d
  · simp; field_simp
  · simp; field_simp

end Geo

/-- Two squares with the linear field 3 + 2x - 5y: hypotheses of `C45_greenGauss_linear_exact` are met, with ghost centres mirrored about the midpoints. -/
example : ∃ s, topological Par.pair = .ok s ∧ ∀ sch, ((Par.airOut sch).disc Par.pair s 0).G.greenGauss
    (fun i (_ : Fin 1) => 3 + 2 * ((Par.airOut sch).disc Par.pair s 0).G.rc i 0 + (-5) * ((Par.airOut sch).disc Par.pair s 0).G.rc i 1)
    (fun k _ => 3 + 2 * ((Par.airOut sch).disc Par.pair s 0).G.rcbp k 0 + (-5) * ((Par.airOut sch).disc Par.pair s 0).G.rcbp k 1) 0 = fun d _ => if d = 0 then 2 else -5 := by
  obtain ⟨s, hs, hf⟩ := Par.pair_topological
  refine ⟨s, hs, fun sch => ?_⟩
  have hok : ((Par.airOut sch).disc Par.pair s 0).G.Ok := ⟨Par.pair_conforming, Par.pair_nozero, hs⟩
  set G := ((Par.airOut sch).disc Par.pair s 0).G with hG
  have h0 : G.rc 0 = ![1 / 2, 1 / 2] := by
    rw [show G.rc 0 = centre Par.pair 0 from rfl]
    funext d; fin_cases d <;> norm_num [centre, forLt, Par.pair, show List.range 4 = [0, 1, 2, 3] from rfl]
  have h1 : G.rc 1 = ![3 / 2, 1 / 2] := by
    rw [show G.rc 1 = centre Par.pair 1 from rfl]
    funext d; fin_cases d <;> norm_num [centre, forLt, Par.pair, show List.range 4 = [0, 1, 2, 3] from rfl]
  have hfa : ∀ k, G.face k = faceAt s.faces k := fun k => rfl
  have hnb : G.m.nbface = 6 := rfl
  have hn : G.nface = 7 := by show s.faces.length = 7; rw [hf]; rfl
  have hghost : ∀ k, k < 6 → G.rc (G.face k).left ≠ G.mid k → (G.face k).left < 2 → Between (G.xl k) (G.mid k) (G.xr k) := fun k hk hne hl => by
    have e : ∀ d, G.xr k d = 2 * G.mid k d - G.xl k d := fun d => by
      unfold Geo.xr
      rw [if_pos (by omega)]
      have hc : G.xl k = centre Par.pair (G.face k).left := if_pos (show (G.face k).left < 2 from hl)
      rw [hc]
      rfl
    refine ⟨fun hc => hne (funext fun d => ?_), 1 / 2, by norm_num, by norm_num, fun d => ?_⟩
    · have := e d; rw [← hc] at this
      show G.xl k d = G.mid k d
      linarith
    · rw [e d]; ring
  refine Geo.C45_greenGauss_linear_exact hok (by show 0 < 2; omega) ?_ ?_ ?_ (fun _ => 3) (fun d _ => if d = 0 then 2 else -5) (fun i _ j => by simp) (fun k _ j => by simp)
  · show area Par.pair 0 = some ((area Par.pair 0).getD 0)
    rw [C23_polygon_area (Or.inr rfl)]; rfl
  · show (area Par.pair 0).getD 0 ≠ 0
    rw [Par.pair_area (by omega)]; norm_num
  · intro k hk ht
    rw [hn] at hk
    have hside : ∀ k, (hk : k < 6) → G.face k = faceAt s.faces k → (G.face k).left = 0 → G.mid k ≠ ![1 / 2, 1 / 2] → Between (G.xl k) (G.mid k) (G.xr k) := fun k hk _ hl hm =>
      hghost k hk (by rw [hl, h0]; exact hm.symm) (by omega)
    obtain rfl | rfl | rfl | rfl | rfl | rfl | rfl : k = 0 ∨ k = 1 ∨ k = 2 ∨ k = 3 ∨ k = 4 ∨ k = 5 ∨ k = 6 := by omega
    · refine hside 0 (by omega) rfl (by rw [hfa, hf]; rfl) fun e => ?_
      have e := congrFun e 1
      unfold Geo.mid at e; rw [hfa, hf] at e
      norm_num [fMid, faceAt, hG, Par.Settings.disc, Par.pair] at e
    · rcases ht with ht | ht <;> rw [hfa, hf] at ht <;> cases ht
    · rcases ht with ht | ht <;> rw [hfa, hf] at ht <;> cases ht
    · rcases ht with ht | ht <;> rw [hfa, hf] at ht <;> cases ht
    · refine hside 4 (by omega) rfl (by rw [hfa, hf]; rfl) fun e => ?_
      have e := congrFun e 1
      unfold Geo.mid at e; rw [hfa, hf] at e
      norm_num [fMid, faceAt, hG, Par.Settings.disc, Par.pair] at e
    · refine hside 5 (by omega) rfl (by rw [hfa, hf]; rfl) fun e => ?_
      have e := congrFun e 0
      unfold Geo.mid at e; rw [hfa, hf] at e
      norm_num [fMid, faceAt, hG, Par.Settings.disc, Par.pair] at e
    · have f6 : G.face 6 = ⟨0, 1, 1, 4⟩ := by rw [hfa, hf]; rfl
      have hl : G.xl 6 = ![1 / 2, 1 / 2] := by unfold Geo.xl; rw [f6]; exact h0
      have hr : G.xr 6 = ![3 / 2, 1 / 2] := by unfold Geo.xr; rw [if_neg (by omega), f6]; exact h1
      rw [hl, hr]
      refine ⟨fun e => ?_, 1 / 2, by norm_num, by norm_num, fun d => ?_⟩
      · have e := congrFun e 0; norm_num at e
      · unfold Geo.mid; rw [f6]
        fin_cases d <;> norm_num [fMid, hG, Par.Settings.disc, Par.pair]

/-- On the square and triangle of the example mesh the midpoint of the common face does not lie between the centres: the face value is wrong for some linear field. -/
example : ¬ ∀ (c : ℝ) (g : Fin 2 → ℝ) (u ug : ℕ → Fin 1 → ℝ), u (exGeo.face 4).left 0 = c + g 0 * exGeo.xl 4 0 + g 1 * exGeo.xl 4 1 →
    exGeo.ur u ug 4 0 = c + g 0 * exGeo.xr 4 0 + g 1 * exGeo.xr 4 1 → exGeo.ut u ug 4 0 = (c + g 0 * exGeo.mid 4 0 + g 1 * exGeo.mid 4 1) * exGeo.len 4 := by
  obtain ⟨hn, f0, f1, f2, f3, f4, f5⟩ := exGeo_face
  obtain ⟨l0, l1, l2, l3, l4, l5, r0, r1, r2, r3, r4, r5⟩ := exGeo_lr
  obtain ⟨c0, c1, c2, c3, c4⟩ := exGeo_coords
  have hne : exGeo.xl 4 ≠ exGeo.xr 4 := fun e => by
    have e := congrFun e 0
    rw [l4, r4] at e
    norm_num at e
  have hlen : 0 < exGeo.len 4 := by
    unfold Geo.len
    rw [f4]
    refine fLen_pos fun e => ?_
    have e := congrFun e 1
    simp only [c1, c2] at e
    norm_num at e
  rw [Geo.C45_face_value_exact_iff exGeo_offMid (by rw [hn]; omega) hlen hne]
  rintro ⟨-, t, t0, t1, ht⟩
  have e0 := ht 0
  have e1 := ht 1
  unfold Geo.mid at e0 e1
  simp only [f4, c1, c2, l4, r4] at e0 e1
  norm_num [fMid] at e0 e1
  linarith

end FV
end FVENS
