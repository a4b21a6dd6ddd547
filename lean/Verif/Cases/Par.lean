import Verif.Cases.FvRun
import Verif.Par.CasePos
import Verif.Par.Carried
import Verif.Par.Enthalpy
import Verif.Par.Upstream
import Verif.Par.Unsteady
import Verif.Par.Construct

/-!
# Concrete cases for the theorems on the solvers of a whole case, on one and on several processes

Applications of theorems from `Verif/Par/*` to concrete inputs that meet their hypotheses.
-/

namespace FVENS.Cases

open FVENS Msh FV Flux Finset Par Ode

/-! ## The square cut by its diagonals -/

noncomputable def crS : FState := FV.Geo.cross_topological.choose
theorem crS_ok : topological FV.Geo.cross = .ok crS := FV.Geo.cross_topological.choose_spec.1
theorem cr_n : FV.Geo.cross.nelem = 4 := by decide +kernel
theorem cr_tags : FV.Geo.cross.nbtag ≤ 4 := by decide +kernel
theorem half_lt : ∀ g, g < FV.Geo.cross.nelem → g / 2 < 2 := fun g hg => by have := cr_n; omega
theorem half_mono : ∀ i j, i < j → j < FV.Geo.cross.nelem → i / 2 ≤ j / 2 := fun _ _ h _ => Nat.div_le_div_right h.le

/-! ## C97: gas at rest -/

noncomputable def stillD (sch : Scheme) : Disc := (airStill sch).disc FV.Geo.cross crS 0
theorem still_ok (sch : Scheme) : (stillD sch).G.Ok := ⟨cross_conforming, FV.Geo.cross_nozero, crS_ok⟩
theorem still_bcs (sch : Scheme) : StillBcs (stillD sch) (Par.rest 1) := fun _ _ => ⟨_, rfl, Or.inr (Or.inr (Or.inr (Or.inl rfl)))⟩
theorem still_g (sch : Scheme) : 1 < (stillD sch).gas.g := by norm_num [stillD, airStill, Settings.disc, air]
theorem still_ar (sch : Scheme) : ∀ i, i < (stillD sch).G.m.nelem → 0 < (stillD sch).G.ar i := fun i hi => by
  have hi : i < FV.Geo.cross.nelem := hi
  show 0 < ((airStill sch).disc FV.Geo.cross crS 0).G.ar i
  rw [cross_area (by have := cr_n; omega)]; norm_num
example := C97_first_order (still_ok .hllc) (still_g .hllc) (p := 2 / 5) (by norm_num) rfl (Or.inr (Or.inr rfl)) (still_bcs .hllc) (rest_atRest one_pos) (u := bump) (fun i _ => bump_atRest i) 0
theorem still_gasOk : Disc.GasOk (stillD .hllc) :=
  ⟨by norm_num [stillD, airStill, Settings.disc, air], by norm_num [stillD, airStill, Settings.disc, air], by norm_num [stillD, airStill, Settings.disc, air], by norm_num [stillD, airStill, Settings.disc, air]⟩
abbrev still_regular := regular_small (u := bump) (still_ok .hllc) still_gasOk (fun _ _ => rfl) (fun i _ => bump_adm i) (still_ar .hllc) (llfJac air)
example := C97_implicit_update (still_ok .hllc) (still_g .hllc) (p := 2 / 5) (by norm_num) rfl (Or.inr (Or.inr rfl)) (still_bcs .hllc) (rest_atRest one_pos) (u := bump) (fun i _ => bump_atRest i)
  (J := llfJac air) (relax := relaxFactor air (1 / 2)) (exact_exists _).choose_spec (cfl := still_regular.choose) (still_regular.choose_spec.2 _ still_regular.choose_spec.1 le_rfl)
theorem bump_over (i : ℕ) : overshoot < bump i 0 := by
  unfold bump; split_ifs <;> norm_num [overshoot, Par.rest]
theorem still_offMid (sch : Scheme) : (stillD sch).G.OffMid := by
  intro k hk
  have hf : crS.faces = _ := FV.Geo.cross_topological.choose_spec.2
  have hk : k < crS.faces.length := hk
  have hl : (stillD sch).G.xl k = centre FV.Geo.cross (faceAt crS.faces k).left := by
    exact if_pos ((⟨cross_conforming, FV.Geo.cross_nozero, crS_ok⟩ : (stillD sch).G.Ok).kind hk).1
  have hr : (stillD sch).G.xr k = if k < 4 then ghostMid (FV.Geo.cross.coords (faceAt crS.faces k).n0) (FV.Geo.cross.coords (faceAt crS.faces k).n1) (centre FV.Geo.cross (faceAt crS.faces k).left) else
      if (faceAt crS.faces k).right < 4 then centre FV.Geo.cross (faceAt crS.faces k).right else 0 := rfl
  have hm : (stillD sch).G.mid k = fMid (FV.Geo.cross.coords (faceAt crS.faces k).n0) (FV.Geo.cross.coords (faceAt crS.faces k).n1) := rfl
  rw [hl, hr, hm]
  rw [hf] at hk ⊢
  have hk : k < 8 := hk
  obtain rfl | rfl | rfl | rfl | rfl | rfl | rfl | rfl : k = 0 ∨ k = 1 ∨ k = 2 ∨ k = 3 ∨ k = 4 ∨ k = 5 ∨ k = 6 ∨ k = 7 := by omega
  all_goals
    constructor
    all_goals
      intro e
      have e0 := congrFun e 0
      have e1 := congrFun e 1
      first | (norm_num [faceAt, fMid, ghostMid, centre, FV.Geo.cross, triMesh, forLt, List.range_succ] at e0; done) | norm_num [faceAt, fMid, ghostMid, centre, FV.Geo.cross, triMesh, forLt, List.range_succ] at e1
example := C97_muscl_run (still_ok .hllc) rfl (still_g .hllc) (p := 2 / 5) (by norm_num) rfl (Or.inr (Or.inr rfl)) (still_bcs .hllc) (rest_atRest one_pos) (by norm_num [overshoot, Par.rest]) (u := bump)
  (fun i _ => ⟨bump_atRest i, bump_over i⟩) (gs := .greenGauss) (still_offMid _) ⟨fun _ => uEx, fun _ => 0, fun _ => 0, fun _ => 0⟩ forwardEuler ⟨1 / 2, 10, 1, 1⟩ 7
theorem walls_rest : ∀ i : ℕ, AtRest air (2 / 5) (Par.rest (i + 1)) := fun i => rest_atRest (by positivity)
theorem walls_muscl : ∃ o, stillWalls.residual2 .wls .muscl ⟨fun _ => Par.rest 3, fun _ => 0, fun _ => 0, fun _ => 0⟩ (fun i => Par.rest (i + 1)) 0 = some o ∧
    ∀ k, k < stillWalls.G.nface → 0 < o.uL k 0 ∧ 0 < o.uR k 0 := by
  obtain ⟨o, h1, h2, -⟩ := C97_muscl (D := stillWalls) (p := 2 / 5) (c := Par.rest 1) (u := fun i => Par.rest (i + 1)) exGeo_ok (by norm_num [stillWalls, air]) (by norm_num) rfl
    (Or.inr (Or.inl rfl)) (fun k _ => ⟨_, rfl, Or.inl rfl⟩) (rest_atRest one_pos) (by norm_num [overshoot, Par.rest])
    (fun i _ => ⟨walls_rest i, by
      have : (0 : ℝ) ≤ i := Nat.cast_nonneg i
      show overshoot < (i : ℝ) + 1
      unfold overshoot
      linarith⟩) (Disc.exDisc_gradOk .wls) (E := ⟨fun _ => Par.rest 3, fun _ => 0, fun _ => 0, fun _ => 0⟩) (fun _ _ _ _ => rest_atRest (by norm_num)) 0
  exact ⟨o, h1, fun k hk => ⟨(h2 k hk).1.rho, (h2 k hk).2.rho⟩⟩
example := C97_second_order (D := stillWalls) (p := 2 / 5) (c := Par.rest 1) (u := fun i => Par.rest (i + 1)) exGeo_ok (by norm_num [stillWalls, air]) (by norm_num) rfl
    (Or.inr (Or.inl rfl)) (fun k _ => ⟨_, rfl, Or.inl rfl⟩) (rest_atRest one_pos) (fun i _ => walls_rest i) (Disc.exDisc_gradOk .wls) (R := .muscl) trivial (E := ⟨fun _ => Par.rest 3, fun _ => 0, fun _ => 0, fun _ => 0⟩) (fun _ _ _ _ => rest_atRest (by norm_num))
    (fun lam h => by cases h) walls_muscl.choose_spec.1 (fun k hk => (walls_muscl.choose_spec.2 k hk).1) (fun k hk _ => (walls_muscl.choose_spec.2 k hk).2)

/-! ## C110 -/

noncomputable def outS (sch : Scheme) : Disc := (airOut sch).disc pair pairS 0
theorem outS_ok (sch : Scheme) : (outS sch).G.Ok := ⟨pair_conforming, pair_nozero, pairS_ok⟩
theorem out_ar (i : ℕ) (hi : i < pair.nelem) : 0 < (area pair i).getD 0 := by rw [pair_area hi]; norm_num
noncomputable def stream2 : ℕ → St := two (carried air ![1 / 4, 1 / 3] (5 / 7) 1) (carried air ![1 / 4, 1 / 3] (5 / 7) 4)
theorem stream2_in (sch : Scheme) : InStream (outS sch) ![1 / 4, 1 / 3] (5 / 7) 1 4 stream2 := fun i _ => by
  unfold stream2 two
  split_ifs
  · exact ⟨1, le_rfl, by norm_num, rfl⟩
  · exact ⟨4, by norm_num, le_rfl, rfl⟩
theorem out_g (sch : Scheme) : 4 ≤ 3 * (outS sch).gas.g := by show 4 ≤ 3 * air.g; norm_num [air]
example := C110_keeps (outS_ok .roe) rfl (out_g _) (by decide) (by decide) (by norm_num) one_pos (b := 4) (fun k _ => ⟨_, rfl, trivial⟩) rfl out_ar (cfl := 1) (stream2_in .roe)
example := C110_step (outS_ok .roe) rfl (out_g _) (by decide) (by decide) (by norm_num) one_pos (b := 4) (Or.inr (Or.inr (by norm_num))) (fun k _ => ⟨_, rfl, trivial⟩) rfl out_ar
  (cfl := 1) (by norm_num) le_rfl (stream2_in .roe)
theorem cr_ar (i : ℕ) (hi : i < FV.Geo.cross.nelem) : 0 < (area FV.Geo.cross i).getD 0 := still_ar .hllc i hi
noncomputable def stream4 : ℕ → St := fun i => carried air ![1 / 4, 1 / 3] (5 / 7) (if i = 2 then 4 else 1)
theorem stream4_in : InStream ((airOut .hllc).disc FV.Geo.cross crS 0) ![1 / 4, 1 / 3] (5 / 7) 1 4 stream4 := fun i _ => by
  refine ⟨if i = 2 then 4 else 1, ?_, ?_, rfl⟩ <;> split_ifs <;> norm_num
example := C110_several cross_conforming rfl cr_tags crS_ok FV.Geo.cross_nozero (cross_all crS_ok fun i => i / 2) (n := 2) half_lt half_mono (airOut .hllc) rfl (by decide) (by decide)
  (w := ![1 / 4, 1 / 3]) (p := 5 / 7) (a := 1) (b := 4) (by norm_num) one_pos (Or.inl rfl) (fun k _ => ⟨_, rfl, trivial⟩) (by show 4 ≤ 3 * air.g; norm_num [air]) cr_ar
  (u := stream4) stream4_in (split_represents _ _ _ stream4) (c := ⟨1 / 2, 10, 1, 1⟩) (by norm_num) (by norm_num) (k := 3) (out := .ok)

/-! ## C88 -/

noncomputable def bumpD : Disc := (air1 (Par.rest 1)).disc FV.Geo.cross crS 0
theorem bumpD_ok : bumpD.G.Ok := ⟨cross_conforming, FV.Geo.cross_nozero, crS_ok⟩
theorem bumpD_g : 4 ≤ 3 * (air1 (Par.rest 1)).gas.g := by norm_num [air1, air]
example := C88_iteration_partial cross_conforming rfl cr_tags crS_ok FV.Geo.cross_nozero (cross_all crS_ok fun i => i / 2) (n := 2) half_lt half_mono (air1 (Par.rest 1)) (fun _ _ => rfl)
  bumpD_g (w := bump) (fun i _ => bump_adm i) (split_represents _ _ _ bump) 1
theorem bump_solve : ∃ out, Solve forwardEuler (single bumpD) ⟨1 / 2, 1, 1, 1⟩ bump 1 out := by
  refine ⟨.tolErr, ?_⟩
  have hb : bumpD.BcOk := fun k _ => rfl
  obtain ⟨o, ho⟩ : ∃ o, bumpD.residual1 bump 0 = some o := ⟨_, by unfold Disc.residual1; rw [if_pos hb]⟩
  have hnorm : ∃ r, (single bumpD).norm bump = some r := by
    have hnn : 0 ≤ energy bumpD o.res := by
      refine Finset.sum_nonneg fun l hl => ?_
      exact mul_nonneg (mul_self_nonneg _) (still_ar .hllc l (Finset.mem_range.1 hl)).le
    exact ⟨_, by simp only [single, ho, Option.bind_some, rootOf]; rw [if_pos hnn]⟩
  obtain ⟨r, hr⟩ := hnorm
  unfold Solve
  rw [if_neg (by norm_num)]
  refine ⟨_, .step ?_ (by simp only [body, init, hr]; rfl) (.done ?_), ?_⟩
  · norm_num [Ode.cond, init, fdiv, FDiv.gt]
  · simp [Ode.cond]
  · simp [forwardEuler]
theorem triv2 : ∃ dist, trivialPartition FV.Geo.cross.nelem 2 = .ok dist := ((C36_trivial FV.Geo.cross.nelem 2 (by omega)).2 (by rw [cr_n]; omega)).imp fun _ h => h.1
example := C88_trivial_partial cross_conforming rfl cr_tags crS_ok FV.Geo.cross_nozero (cross_all crS_ok triv2.choose) (air1 (Par.rest 1)) (fun _ _ => rfl) bumpD_g two_pos triv2.choose_spec
  (split_represents _ _ _ bump) bump_solve.choose_spec (fun j hj m hm i _ => by
    obtain rfl : j = 0 := by omega
    cases hm
    exact bump_adm i)

/-! ## C90 -/

example := C90_oriented cross_raw
example := C90_too_many_ranks cross_raw (n := 7) (by rw [cr_n]; norm_num) (fun _ _ _ => none) none none 3

/-! ## C95 -/

example := C95_explicit_iff (D := stillD .hllc) (u := bump) (still_ok _) still_gasOk (fun _ _ => rfl) (fun i _ => bump_adm i) (still_ar _) (cfl := 1 / 2) (by norm_num)
example := C95_norm_zero_iff (D := stillD .hllc) (u := bump) (still_ar _)
theorem bump_steady : IsSteady (stillD .hllc) bump :=
  C97_first_order (still_ok .hllc) (still_g .hllc) (p := 2 / 5) (by norm_num) rfl (Or.inr (Or.inr rfl)) (still_bcs .hllc) (rest_atRest one_pos) (u := bump) (fun i _ => bump_atRest i) 0
example := C95_stays bump_steady backwardEuler ⟨1 / 2, 10, 1, 1⟩ 5

end FVENS.Cases
