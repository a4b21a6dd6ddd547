import Verif.Par.Upstream
import Verif.FV.JacSwitch
import Verif.Flux.Carried
import Verif.FV.Copy2

/-!
# Second-order flow that leaves a cell faster than sound (C98)

Gradients read all neighbours, src/spatial/agradientschemes.cpp:61-214, those downstream included; so the second-order residual upstream depends on states downstream of a supersonic face.
-/

namespace FVENS
namespace FV
namespace Disc

open Msh Flux
open Finset (range)

variable {D : Disc}

/-- Face states that linear reconstruction computes: extrapolation from the cells on either side. -/
theorem linear_states (h : D.G.Ok) {gs : GradScheme} {E : Env} {u r : ℕ → St} {o : Out} (ho : D.residual2 gs .linear E u r = some o) {k : ℕ} (hk : k < D.G.nface) :
    o.uL k = D.gas.consOfPrim (fun v => linExt (D.gas.primOfCons (u (D.G.face k).left) v) (fun d => D.recGrads gs .linear E u (D.G.face k).left d v) 1 (D.G.mid k) (D.G.rc (D.G.face k).left)) ∧
    (D.G.inner k → o.uR k = D.gas.consOfPrim
      (fun v => linExt (D.gas.primOfCons (u (D.G.face k).right) v) (fun d => D.recGrads gs .linear E u (D.G.face k).right d v) 1 (D.G.mid k) (D.G.rc (D.G.face k).right))) := by
  obtain ⟨k1, k2, k3, k4, k5⟩ := h.kind hk
  have hLr : (D.G.face k).left < D.G.rows := by unfold Geo.rows; omega
  obtain ⟨hok, a, ha, hL, hR, -⟩ := residual2_some.1 ho
  unfold rec2 recon at ha
  simp only at ha
  split_ifs at ha with hs
  have ha' := Option.some.inj ha
  have key : ∀ v, a (true, k) v = linExt (D.gas.primOfCons (u (D.G.face k).left) v) (fun d => D.recGrads gs .linear E u (D.G.face k).left d v) 1 (D.G.mid k) (D.G.rc (D.G.face k).left) ∧
      (D.G.inner k → a (false, k) v = linExt (D.gas.primOfCons (u (D.G.face k).right) v) (fun d => D.recGrads gs .linear E u (D.G.face k).right d v) 1 (D.G.mid k) (D.G.rc (D.G.face k).right)) := by
    intro v
    rw [← ha']
    have hv := hs v
    simp only [recon1, faceArr] at hv ⊢
    split_ifs at hv ⊢ with hc
    · simp only [Option.getD_some, hk, if_true]
      have hck := hc k hk
      unfold Geo.linearFace at hck ⊢
      simp only [rd, if_pos hLr, Option.bind_some] at hck ⊢
      by_cases hin : D.G.inner k
      · have hR : (D.G.face k).right < D.G.rows := by have := k4.1 hin; unfold Geo.rows; omega
        simp [hin, hR]
      · simp [hin]
    · simp at hv
  refine ⟨?_, fun hin => ?_⟩
  · rw [hL]; congr 1; funext v; exact (key v).1
  · have hb : ¬ k < D.G.m.nbface := by have := hin.1; omega
    rw [hR, if_neg hb, if_pos hin]; congr 1; funext v; exact (key v).2 hin

/-- Air under pressure 1 that moves at speed 4 along the first axis: density `7/5` in the first cell, `b` in the second and `z` elsewhere. -/
noncomputable def dense (b z : ℝ) : ℕ → St := fun i => if i = 0 then carried air ![4, 0] 1 (7 / 5) else if i = 1 then carried air ![4, 0] 1 b else carried air ![4, 0] 1 z

theorem prim_carried {r : ℝ} (hr : r ≠ 0) : air.primOfCons (carried air ![4, 0] 1 r) = ![r, 4, 0, 1] := by
  have h3 : air.pressure (carried air ![4, 0] 1 r) = 1 := by
    rw [← varsP_eq (u := carried air ![4, 0] 1 r) (show r ≠ 0 from hr)]
    exact carried_p (by norm_num [air]) hr
  funext v
  fin_cases v
  · rfl
  · show r * 4 / r = 4
    field_simp
  · show r * 0 / r = 0
    simp
  · exact h3

theorem cons_carried (r : ℝ) : air.consOfPrim ![r, 4, 0, 1] = carried air ![4, 0] 1 r := by
  funext v
  fin_cases v <;> simp [Gas.consOfPrim, carried, Gas.energyOfPrim, Gas.energyOfP, dot, mom, air]
  ring

theorem fLen_fNrm {a b : Fin 2 → ℝ} (h : fLen a b ≠ 0) (x : ℝ) (d : Fin 2) : x * fLen a b * fNrm a b d = x * ![b 1 - a 1, -(b 0 - a 0)] d := by
  fin_cases d <;> simp [fNrm] <;> field_simp

theorem exGeo_inner : exGeo.inner 4 := by
  have := (exGeo_ok.kind (k := 4) (by rw [exGeo_face.1]; decide)).2.2.2.1
  exact this.2 (by rw [exGeo_face.2.2.2.2.2.1]; show 1 < 2; decide)

/-- Green–Gauss gradients of a field that has the value `p` in the first cell, `q` in the second and `z` in the third, with ghost values equal to those inside. -/
theorem gg_two (p q z : St) {up ug : ℕ → St} (hp : up 0 = p) (e1 : up 1 = q) (e2 : up 2 = z) (hg : ∀ k, k < 4 → ug k = up (exGeo.face k).left) :
    ∃ t s, 0 < t ∧ t < 1 ∧ 0 < s ∧ (exGeo.greenGauss up ug 0 = fun d j => ![t * (q j - p j), 0] d) ∧
      exGeo.greenGauss up ug 1 = fun d j => ![2 * (1 - t) * (q j - p j) + 2 * s * (z j - q j), 2 * s * (z j - q j)] d := by
  obtain ⟨hn, f0, f1, f2, f3, f4, f5⟩ := exGeo_face
  obtain ⟨c0, c1, c2, c3, c4⟩ := exGeo_coords
  have hlen : ∀ k, k < 6 → exGeo.len k ≠ 0 := fun k hk => (len_pos (D := exStill) exGeo_ok (by show k < exGeo.nface; omega)).ne'
  let t : ℕ → ℝ := fun k => invDist (exGeo.xr k) (exGeo.mid k) / (invDist (exGeo.xl k) (exGeo.mid k) + invDist (exGeo.xr k) (exGeo.mid k))
  have hpos : ∀ k, k < 6 → 0 < invDist (exGeo.xl k) (exGeo.mid k) ∧ 0 < invDist (exGeo.xr k) (exGeo.mid k) := fun k hk =>
    ⟨Geo.invDist_pos (exGeo_offMid k (by rw [hn]; exact hk)).1, Geo.invDist_pos (exGeo_offMid k (by rw [hn]; exact hk)).2⟩
  have hut : ∀ k, k < 6 → ∀ j d, exGeo.ut up ug k j * exGeo.nrm k d =
      ((1 - t k) * up (exGeo.face k).left j + t k * exGeo.ur up ug k j) * ![exGeo.m.coords (exGeo.face k).n1 1 - exGeo.m.coords (exGeo.face k).n0 1,
        -(exGeo.m.coords (exGeo.face k).n1 0 - exGeo.m.coords (exGeo.face k).n0 0)] d := fun k hk j d => by
    rw [← fLen_fNrm (hlen k hk)]
    show exGeo.ut up ug k j * exGeo.nrm k d = _ * exGeo.len k * exGeo.nrm k d
    congr 1
    unfold Geo.ut
    obtain ⟨h1, h2⟩ := hpos k hk
    simp only [t]
    field_simp
    ring
  have t4 := hpos 4 (by decide)
  have hb : exGeo.m.nbface = 4 := rfl
  have hsum : ∀ i, exGeo.greenGauss up ug i = ∑ k ∈ range 6, ((if (exGeo.face k).left = i then exGeo.ggL up ug k else 0) +
      if exGeo.inner k ∧ (exGeo.face k).right = i then exGeo.ggR up ug k else 0) := fun i => by
    unfold Geo.greenGauss
    rw [accum_eq]
    show (0 : Fin 2 → Fin 4 → ℝ) + ∑ k ∈ range exGeo.nface, _ = _
    rw [hn, zero_add]
    rfl
  have ar0 : exGeo.ar 0 = 1 := rfl
  have ar1 : exGeo.ar 1 = 1 / 2 := rfl
  have t5 := hpos 5 (by decide)
  refine ⟨t 4, t 5, div_pos t4.2 (add_pos t4.1 t4.2), (div_lt_one (add_pos t4.1 t4.2)).2 (by linarith), div_pos t5.2 (add_pos t5.1 t5.2), ?_, ?_⟩
  · rw [hsum]
    funext d j
    simp only [Finset.sum_range_succ, Finset.sum_range_zero, f0, f1, f2, f3, f4, f5]
    fin_cases d <;> simp [Geo.ggL, hut 0 (by decide), hut 2 (by decide), hut 3 (by decide), hut 4 (by decide), f0, f2, f3, f4, Geo.ur, hb, hg 0 (by decide), hg 2 (by decide), hg 3 (by decide),
      c0, c1, c2, c3, hp, e1, ar0] <;> ring
  · rw [hsum]
    funext d j
    simp only [Finset.sum_range_succ, Finset.sum_range_zero, f0, f1, f2, f3, f4, f5]
    fin_cases d <;> simp [exGeo_inner, Geo.ggL, Geo.ggR, hut 1 (by decide), hut 5 (by decide), hut 4 (by decide), f1, f4, f5, Geo.ur, hb, hg 1 (by decide),
      c1, c2, c4, hp, e1, e2, ar1] <;> ring

theorem mass_carried {r : ℝ} (hr : 0 < r) (n : V2) : air.eulerFlux (carried air ![4, 0] 1 r) n 0 = 4 * n 0 * r := by
  rw [eulerFlux_eq (show r ≠ 0 from hr.ne'), carried_vn hr.ne', carried_dirFlux']
  simp

theorem dense_adm {b z : ℝ} (hb : 0 < b) (hz : 0 < z) (i : ℕ) : Adm air (dense b z i) := by
  unfold dense
  split_ifs
  · exact carried_adm (by norm_num [air]) (by norm_num) one_pos
  · exact carried_adm (by norm_num [air]) hb one_pos
  · exact carried_adm (by norm_num [air]) hz one_pos

theorem dense_fast {x y : ℝ} (hx : 7 / 5 ≤ x) (hy : 7 / 5 ≤ y) : Par.Faster .ausm air (carried air ![4, 0] 1 x) (carried air ![4, 0] 1 y) ![1, 0] := by
  have key : ∀ {r : ℝ}, 7 / 5 ≤ r → cSide air (carried air ![4, 0] 1 r) < Gas.varsVn (carried air ![4, 0] 1 r) ![1, 0] := by
    intro r hr
    have h0 : (0 : ℝ) < r := by linarith
    rw [carried_vn h0.ne']
    unfold cSide
    rw [carried_p (by norm_num [air]) h0.ne']
    show √(air.g * 1 / r) < _
    have : air.g * 1 / r ≤ 1 := by
      rw [div_le_one h0]
      show (7 / 5 : ℝ) * 1 ≤ r
      linarith
    have h1 := Real.sqrt_le_sqrt this
    rw [Real.sqrt_one] at h1
    have h4 : (![4, 0] : V2) 0 * (![1, 0] : V2) 0 + (![4, 0] : V2) 1 * (![1, 0] : V2) 1 = 4 := by simp
    rw [h4]
    linarith
  exact ⟨key hx, key hy⟩

/-- The second-order residual of the first cell with Green–Gauss gradients and linear reconstruction: mass flows out in proportion to the difference of density to the cell downstream, although
the face between the cells is crossed faster than sound on both sides. -/
theorem dense_residual {b z : ℝ} (hb : 7 / 5 ≤ b) (hb' : b ≤ 14 / 5) (hz : 0 < z) (hz' : z ≤ b) (E : Env) : ∃ t o, 0 < t ∧ exStill.residual2 .greenGauss .linear E (dense b z) (fun _ => 0) = some o ∧
    Par.Faster .ausm air (o.uL 4) (o.uR 4) ![1, 0] ∧ Adm air (o.uL 4) ∧ Adm air (o.uR 4) ∧ o.res 0 0 = -(4 * t * (b - 7 / 5)) := by
  obtain ⟨hn, f0, f1, f2, f3, f4, f5⟩ := exGeo_face
  obtain ⟨c0, c1, c2, c3, c4⟩ := exGeo_coords
  have hok : exStill.BcOk := fun _ _ => rfl
  have b0 : b ≠ 0 := by linarith
  obtain ⟨o, ho⟩ : ∃ o, exStill.residual2 .greenGauss .linear E (dense b z) (fun _ => 0) = some o := by
    unfold residual2
    rw [if_pos hok]
    simp only [recon]
    rw [if_pos fun v => recon1_isSome exGeo_ok (R := .linear) trivial (by simp) _ _ _ _]
    exact ⟨_, rfl⟩
  obtain ⟨t, s, t0, t1, s0, g0, g1⟩ := gg_two ![7 / 5, 4, 0, 1] ![b, 4, 0, 1] ![z, 4, 0, 1] (up := fun i => air.primOfCons (dense b z i)) (ug := fun k => air.primOfCons (exStill.bstate k (dense b z (exGeo.face k).left)))
    (by show air.primOfCons (dense b z 0) = _; unfold dense; rw [if_pos rfl]; exact prim_carried (by norm_num))
    (by show air.primOfCons (dense b z 1) = _; unfold dense; rw [if_neg (by decide), if_pos rfl]; exact prim_carried b0)
    (by show air.primOfCons (dense b z 2) = _; unfold dense; rw [if_neg (by decide), if_neg (by decide)]; exact prim_carried hz.ne') (fun k _ => rfl)
  have G0 : exStill.recGrads .greenGauss .linear E (dense b z) 0 = fun d j => ![t * ((![b, 4, 0, 1] : St) j - (![7 / 5, 4, 0, 1] : St) j), 0] d := g0
  have G1 : exStill.recGrads .greenGauss .linear E (dense b z) 1 = fun d j => ![2 * (1 - t) * ((![b, 4, 0, 1] : St) j - (![7 / 5, 4, 0, 1] : St) j) +
    2 * s * ((![z, 4, 0, 1] : St) j - (![b, 4, 0, 1] : St) j), 2 * s * ((![z, 4, 0, 1] : St) j - (![b, 4, 0, 1] : St) j)] d := g1
  have d0 : air.primOfCons (dense b z 0) = ![7 / 5, 4, 0, 1] := by unfold dense; rw [if_pos rfl]; exact prim_carried (by norm_num)
  have d1 : air.primOfCons (dense b z 1) = ![b, 4, 0, 1] := by unfold dense; rw [if_neg (by decide), if_pos rfl]; exact prim_carried b0
  have rc0 : exGeo.rc 0 = ![1 / 2, 1 / 2] := rfl
  have rc1 : exGeo.rc 1 = ![4 / 3, 1 / 3] := rfl
  have left : ∀ k, k < 6 → (exGeo.face k).left = 0 → o.uL k = carried air ![4, 0] 1 (7 / 5 + t * (b - 7 / 5) * (exGeo.mid k 0 - 1 / 2)) := fun k hk hl => by
    have := (linear_states (D := exStill) exGeo_ok ho (k := k) (by show k < exGeo.nface; omega)).1
    rw [this, ← cons_carried]
    show air.consOfPrim _ = _
    congr 1
    show (fun v => linExt (air.primOfCons (dense b z (exGeo.face k).left) v) (fun d => exStill.recGrads .greenGauss .linear E (dense b z) (exGeo.face k).left d v) 1 (exGeo.mid k) (exGeo.rc (exGeo.face k).left)) = _
    rw [hl, d0, G0, rc0]
    funext v
    fin_cases v <;> simp [linExt]
  have right : o.uR 4 = carried air ![4, 0] 1 (b - 2 / 3 * (1 - t) * (b - 7 / 5) + s * (b - z) / 3) := by
    have := (linear_states (D := exStill) exGeo_ok ho (k := 4) (by show 4 < exGeo.nface; omega)).2 exGeo_inner
    rw [this, ← cons_carried]
    show air.consOfPrim _ = _
    congr 1
    show (fun v => linExt (air.primOfCons (dense b z (exGeo.face 4).right) v) (fun d => exStill.recGrads .greenGauss .linear E (dense b z) (exGeo.face 4).right d v) 1 (exGeo.mid 4) (exGeo.rc (exGeo.face 4).right)) = _
    have hm : exGeo.mid 4 = ![1, 1 / 2] := by
      unfold Geo.mid
      rw [f4, c1, c2]
      funext d
      fin_cases d <;> simp [fMid]
    rw [hm, f4]
    show (fun v => linExt (air.primOfCons (dense b z 1) v) (fun d => exStill.recGrads .greenGauss .linear E (dense b z) 1 d v) 1 _ (exGeo.rc 1)) = _
    rw [d1, G1, rc1]
    funext v
    fin_cases v <;> simp [linExt]
    ring
  have hfast : Par.Faster .ausm air (o.uL 4) (o.uR 4) ![1, 0] := by
    have hm : exGeo.mid 4 0 = 1 := by unfold Geo.mid; rw [f4, c1, c2]; simp [fMid]
    rw [left 4 (by decide) (by rw [f4]), right, hm]
    refine dense_fast ?_ ?_
    · nlinarith [mul_nonneg t0.le (sub_nonneg.2 hb), mul_nonneg s0.le (sub_nonneg.2 hz')]
    · nlinarith [mul_nonneg t0.le (sub_nonneg.2 hb), mul_nonneg s0.le (sub_nonneg.2 hz')]
  obtain ⟨-, a, -, hL, hR, hres⟩ := residual2_some.1 ho
  have hF : ∀ k, exStill.faceFlux true (dense b z) (exStill.grads2 .greenGauss E (dense b z)) o.uL o.uR (fun k => exStill.bstate k (dense b z (exStill.G.face k).left)) k 0
      = ausm air (o.uL k) (o.uR k) (exGeo.nrm k) 0 * exGeo.len k := fun k => by
    show ausm air (o.uL k) (o.uR k) (exGeo.nrm k) 0 * exGeo.len k + (if false = true then _ else 0) = _
    simp
  have hbd : ∀ k, k < 4 → (exGeo.face k).left = 0 → ausm air (o.uL k) (o.uR k) (exGeo.nrm k) 0 * exGeo.len k =
      4 * (7 / 5 + t * (b - 7 / 5) * (exGeo.mid k 0 - 1 / 2)) * (exGeo.m.coords (exGeo.face k).n1 1 - exGeo.m.coords (exGeo.face k).n0 1) ∨ exGeo.mid k 0 < 0 := fun k hk hl => by
    by_cases hm : exGeo.mid k 0 < 0
    · exact .inr hm
    left
    have hr : 0 < 7 / 5 + t * (b - 7 / 5) * (exGeo.mid k 0 - 1 / 2) := by
      have h1 : 0 ≤ exGeo.mid k 0 := not_lt.1 hm
      have h2 : 0 ≤ t * (b - 7 / 5) := mul_nonneg t0.le (sub_nonneg.2 hb)
      have h3 : t * (b - 7 / 5) ≤ 7 / 5 := by nlinarith
      nlinarith
    have e : o.uR k = o.uL k := by
      rw [hR, if_pos (show k < exStill.G.m.nbface from hk)]
      rfl
    have hlen := (len_pos (D := exStill) exGeo_ok (k := k) (by show k < exGeo.nface; omega)).ne'
    change exGeo.len k ≠ 0 at hlen
    rw [e, left k (by omega) hl, C15_ausm (carried_adm (by norm_num [air]) hr one_pos), mass_carried hr]
    have := fLen_fNrm hlen 1 0
    simp only [Matrix.cons_val_zero, one_mul] at this
    rw [← this]
    show _ = _ * (exGeo.len k * exGeo.nrm k 0)
    ring
  have m0 : exGeo.mid 0 0 = 1 / 2 := by unfold Geo.mid; rw [f0, c0, c1]; simp [fMid]
  have m2 : exGeo.mid 2 0 = 1 / 2 := by unfold Geo.mid; rw [f2, c2, c3]; simp [fMid]
  have m3 : exGeo.mid 3 0 = 0 := by unfold Geo.mid; rw [f3, c3, c0]; simp [fMid]
  have m4 : exGeo.mid 4 0 = 1 := by unfold Geo.mid; rw [f4, c1, c2]; simp [fMid]
  have F0 := (hbd 0 (by decide) (by rw [f0])).resolve_right (by rw [m0]; norm_num)
  have F2 := (hbd 2 (by decide) (by rw [f2])).resolve_right (by rw [m2]; norm_num)
  have F3 := (hbd 3 (by decide) (by rw [f3])).resolve_right (by rw [m3]; norm_num)
  have n4 : exGeo.nrm 4 = ![1, 0] := by
    unfold Geo.nrm
    rw [f4, c1, c2]
    funext q
    fin_cases q <;> simp [fNrm, fLen]
  have l4 : exGeo.len 4 = 1 := by
    unfold Geo.len
    rw [f4, c1, c2]
    simp [fLen]
  have hr4 : 0 < 7 / 5 + t * (b - 7 / 5) * (1 - 1 / 2) := by nlinarith [mul_nonneg t0.le (sub_nonneg.2 hb), mul_nonneg s0.le (sub_nonneg.2 hz')]
  have hr4' : 0 < b - 2 / 3 * (1 - t) * (b - 7 / 5) + s * (b - z) / 3 := by nlinarith [mul_nonneg t0.le (sub_nonneg.2 hb), mul_nonneg s0.le (sub_nonneg.2 hz')]
  have hA : Adm air (o.uL 4) := by rw [left 4 (by decide) (by rw [f4]), m4]; exact carried_adm (by norm_num [air]) hr4 one_pos
  have hB : Adm air (o.uR 4) := by rw [right]; exact carried_adm (by norm_num [air]) hr4' one_pos
  have F4 : ausm air (o.uL 4) (o.uR 4) (exGeo.nrm 4) 0 * exGeo.len 4 = 4 * (7 / 5 + t * (b - 7 / 5) * (1 - 1 / 2)) := by
    have := hfast.flux hA hB
    change ausm _ _ _ _ = _ at this
    rw [n4, l4, this, left 4 (by decide) (by rw [f4]), m4, mass_carried hr4]
    simp
  refine ⟨t, o, t0, ho, hfast, hA, hB, ?_⟩
  rw [hres]
  unfold fluxes
  rw [assemble_eq]
  show ((0 : St) + ∑ k ∈ range exGeo.nface, contrib 2 (exGeo.face k) _ 0) 0 = _
  rw [hn]
  simp only [Finset.sum_range_succ, Finset.sum_range_zero, f0, f1, f2, f3, f4, f5]
  simp [contrib]
  rw [hF, hF, hF, hF, F0, F2, F3, F4]
  simp only [f0, f2, f3, m0, m2, m3, c0, c1, c2, c3]
  norm_num
  ring

/-- The full claim of C98 fails at second order (Green–Gauss gradients, linear reconstruction, AUSM, no viscosity): the face between the two cells of the example mesh is crossed faster than sound, on
both sides, by the cell states and by the face states; denser gas downstream still changes the residual upstream. -/
theorem C98_second_order_refuted : ∃ (D : Disc) (u w : ℕ → St), D.G.Ok ∧ D.BcOk ∧ D.scheme = .ausm ∧ D.viscous = false ∧ (∀ i, Adm D.gas (u i)) ∧ (∀ i, Adm D.gas (w i)) ∧ u 0 = w 0 ∧
    Par.Faster D.scheme D.gas (u 0) (u 1) (D.G.nrm 4) ∧ Par.Faster D.scheme D.gas (w 0) (w 1) (D.G.nrm 4) ∧ ∀ E, ∃ o o', D.residual2 .greenGauss .linear E u (fun _ => 0) = some o ∧
      D.residual2 .greenGauss .linear E w (fun _ => 0) = some o' ∧ Par.Faster D.scheme D.gas (o.uL 4) (o.uR 4) (D.G.nrm 4) ∧
      Par.Faster D.scheme D.gas (o'.uL 4) (o'.uR 4) (D.G.nrm 4) ∧ o.res 0 ≠ o'.res 0 := by
  have n4 : exStill.G.nrm 4 = ![1, 0] := by
    show exGeo.nrm 4 = _
    obtain ⟨hn, f0, f1, f2, f3, f4, f5⟩ := exGeo_face
    obtain ⟨c0, c1, c2, c3, c4⟩ := exGeo_coords
    unfold Geo.nrm
    rw [f4, c1, c2]
    funext q
    fin_cases q <;> simp [fNrm, fLen]
  refine ⟨exStill, dense (7 / 5) (7 / 5), dense (14 / 5) (14 / 5), exGeo_ok, fun _ _ => rfl, rfl, rfl, dense_adm (by norm_num) (by norm_num), dense_adm (by norm_num) (by norm_num), rfl, ?_, ?_, fun E => ?_⟩
  · rw [n4]; exact dense_fast le_rfl le_rfl
  · rw [n4]; exact dense_fast le_rfl (by norm_num)
  · obtain ⟨t, o, t0, ho, hf, -, -, hr⟩ := dense_residual (b := 7 / 5) le_rfl (by norm_num) (by norm_num) le_rfl E
    obtain ⟨t', o', t0', ho', hf', -, -, hr'⟩ := dense_residual (b := 14 / 5) (by norm_num) le_rfl (by norm_num) le_rfl E
    rw [n4]
    refine ⟨o, o', ho, ho', hf, hf', fun e => ?_⟩
    have := congrFun e 0
    rw [hr, hr'] at this
    nlinarith

end Disc
end FV
end FVENS
