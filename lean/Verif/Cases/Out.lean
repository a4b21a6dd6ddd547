import Verif.Cases.Phys
import Verif.Out.Array
import Verif.Out.ArrayText
import Verif.Out.Entropy
import Verif.Out.Files
import Verif.Out.Lift
import Verif.Out.Nodal
import Verif.Out.Surface
import Verif.Out.VtuData

/-!
Concrete cases of the theorems on arrays and output (`Out/*`).
-/

namespace FVENS.Cases

open FVENS

/-! ## C70: array 0 is two by three and filled with 5, array 1 a copy with one element changed -/

section arrays
open Arr

theorem arrays : ∃ w, Reach w ∧ Dims w 0 2 3 ∧ Dims w 1 2 3 ∧ (∀ i j, i < 2 → j < 3 → get w 0 i j = some (some 5)) ∧
    (∀ i j, i < 2 → j < 3 → get w 1 i j = some (some (if i = 1 ∧ j = 2 then 7 else 5))) ∧ w.obj 2 = none := by
  have r0 : Reach ⟨fun _ => none, 0, fun _ => none⟩ := .start
  have l1 : Legal ⟨fun _ => none, 0, fun _ => none⟩ (.construct 0 2 3) := ⟨rfl, by norm_num⟩
  obtain ⟨w1, s1, _⟩ := step_wf r0.wf l1
  have r1 : Reach w1 := .step r0 l1 s1
  have hc : construct ⟨fun _ => none, 0, fun _ => none⟩ 0 2 3 = some w1 := s1
  rw [construct_spec _ (by norm_num)] at hc
  have d1 : Dims w1 0 2 3 := by cases hc; exact renew_dims _ _ _ _ _
  have n1 : ∀ x, x ≠ 0 → w1.obj x = none := by
    intro x hx; cases hc; simp [renew, setObj, put, withVal, hx]
  have l2 : Legal w1 (.fill 0 5) := by obtain ⟨o, h, -⟩ := d1; show w1.obj 0 ≠ none; rw [h]; simp
  obtain ⟨w2, s2, _⟩ := step_wf r1.wf l2
  have r2 : Reach w2 := .step r1 l2 s2
  have g2 := fun i j (hi : i < 2) (hj : j < 3) => C70_fill r1 d1 s2 hi hj
  have o2 : w2.obj = w1.obj := by
    obtain ⟨o, h, -, -⟩ := id d1
    rcases fill_spec r1.wf h 5 with ⟨_, h1⟩ | ⟨p, b, _, _, _, h1⟩
    all_goals
      have h2 : some w2 = _ := s2.symm.trans h1
      cases h2
      rfl
  have d2 : Dims w2 0 2 3 := by unfold Dims; rw [o2]; exact d1
  have l3 : Legal w2 (.copy 1 0) := ⟨by rw [o2]; exact n1 1 (by omega), by obtain ⟨o, h, -⟩ := d2; rw [h]; simp⟩
  obtain ⟨w3, s3, _⟩ := step_wf r2.wf l3
  have r3 : Reach w3 := .step r2 l3 s3
  obtain ⟨c1, c2⟩ := C70_copy r2 l3 s3
  obtain ⟨d3, g3⟩ := c1 2 3 d2
  have l4 : Legal w3 (.set 1 1 2 7) := by obtain ⟨o, h, e1, e2⟩ := d3; exact ⟨o, h, by omega, by omega⟩
  obtain ⟨w4, s4, _⟩ := step_wf r3.wf l4
  obtain ⟨g4, d4, k4⟩ := C70_write r3 l4 s4
  have d30 : Dims w3 0 2 3 := by unfold Dims; rw [(c2 0 (by omega)).1]; exact d2
  have o4 : w4.obj = w3.obj := by
    have h2 : set w3 1 1 2 7 = some w4 := s4
    obtain ⟨o, _, h2⟩ := Option.bind_eq_some_iff.1 h2
    exact (store_same h2).obj
  refine ⟨w4, .step r3 l4 s4, (d4 0 2 3).2 d30, (d4 1 2 3).2 d3, fun i j hi hj => ?_, fun i j hi hj => ?_, ?_⟩
  · rw [k4 0 2 3 i j d30 hi hj (by simp), (c2 0 (by omega)).2, g2 i j hi hj]
  · split_ifs with e
    · obtain ⟨rfl, rfl⟩ := e
      exact g4
    · rw [k4 1 2 3 i j d3 hi hj (by simp; omega), g3 i j hi hj, g2 i j hi hj]
  · rw [o4, (c2 2 (by omega)).1, o2]; exact n1 2 (by omega)

noncomputable def mem : World := arrays.choose
theorem mem_reach : Reach mem := arrays.choose_spec.1
theorem mem0 : Dims mem 0 2 3 := arrays.choose_spec.2.1
theorem mem1 : Dims mem 1 2 3 := arrays.choose_spec.2.2.1
theorem val0 : ∀ i j, i < 2 → j < 3 → get mem 0 i j = some (some 5) := arrays.choose_spec.2.2.2.1
theorem val1 : ∀ i j, i < 2 → j < 3 → get mem 1 i j = some (some (if i = 1 ∧ j = 2 then 7 else 5)) := arrays.choose_spec.2.2.2.2.1
theorem mem2 : mem.obj 2 = none := arrays.choose_spec.2.2.2.2.2
theorem obj0 : mem.obj 0 ≠ none := by obtain ⟨o, h, -⟩ := mem0; rw [h]; simp
theorem obj1 : mem.obj 1 ≠ none := by obtain ⟨o, h, -⟩ := mem1; rw [h]; simp

example := C70_read mem_reach mem0 (i := 1) (j := 2) (by decide) (by decide)
/-- the arrays differ by 2 -/
example : areEqual mem 1 0 1 = some false ∧ areEqual mem 2 0 1 = some true := by
  have key := fun eps => C70_equal mem_reach mem0 mem1 (u := fun _ _ => 5) (v := fun i j => if i = 1 ∧ j = 2 then 7 else 5) val0 val1 eps
  constructor
  · obtain ⟨b, h, hb⟩ := key 1
    cases b with
    | false => exact h
    | true =>
      have := (hb.1 rfl).2.2 1 2 (by decide) (by decide)
      norm_num at this
  · obtain ⟨b, h, hb⟩ := key 2
    rw [h, hb.2 ⟨rfl, rfl, fun i j _ _ => by split_ifs <;> norm_num⟩]
/-- array 1 is assigned to array 0 -/
example : ∃ w', assign false mem 0 1 = some w' ∧ get w' 0 1 2 = some (some 7) := by
  have hl : Legal mem (.assign 0 1) := ⟨obj0, obj1⟩
  obtain ⟨w', h⟩ := Option.isSome_iff_exists.1 (C70_defined mem_reach hl)
  exact ⟨w', h, by rw [((C70_assign mem_reach hl (by decide) false h).1 2 3 mem1).2 1 2 (by decide) (by decide), val1 1 2 (by decide) (by decide)]; simp⟩
example : ∃ w', move mem 2 1 = some w' ∧ get w' 2 1 2 = some (some 7) ∧ Dims w' 1 0 0 := by
  have hl : Legal mem (.move 2 1) := ⟨mem2, obj1⟩
  obtain ⟨w', h⟩ := Option.isSome_iff_exists.1 (C70_defined mem_reach hl)
  obtain ⟨-, h2, h3, -⟩ := C70_move mem_reach hl h
  exact ⟨w', h, by rw [h2, val1 1 2 (by decide) (by decide)]; simp, h3⟩
example : ∃ w', resize mem 1 4 5 = some w' ∧ Dims w' 1 4 5 ∧ get w' 0 0 0 = some (some 5) := by
  have hl : Legal mem (.resize 1 4 5) := ⟨obj1, by norm_num⟩
  obtain ⟨w', h⟩ := Option.isSome_iff_exists.1 (C70_defined mem_reach hl)
  obtain ⟨h1, -, h3⟩ := C70_resize mem_reach hl h
  exact ⟨w', h, h1, by rw [(h3 0 (by decide)).2, val0 0 0 (by decide) (by decide)]⟩
example : ∃ w', fill mem 1 8 = some w' ∧ get w' 1 1 2 = some (some 8) := by
  obtain ⟨w', h⟩ := Option.isSome_iff_exists.1 (C70_defined mem_reach (op := .fill 1 8) obj1)
  exact ⟨w', h, C70_fill mem_reach mem1 h (by decide) (by decide)⟩
example : ∃ w', setdata mem 1 (fun k => k) 6 = some w' ∧ get w' 1 1 2 = some (some 5) := by
  obtain ⟨o, h, e1, e2⟩ := id mem1
  obtain ⟨w', h⟩ := Option.isSome_iff_exists.1 (C70_defined mem_reach (op := .setdata 1 (fun k => k) 6) ⟨o, h, by rw [e1, e2]⟩)
  refine ⟨w', h, ?_⟩
  rw [C70_setdata mem_reach mem1 (by norm_num) h (by decide : 1 < 2) (by decide : 2 < 3)]
  norm_num
/-- one array constructed and destroyed -/
example : ∃ w1 w2, construct ⟨fun _ => none, 0, fun _ => none⟩ 0 2 3 = some w1 ∧ destroy w1 0 = some w2 ∧ ∀ p, w2.blk p = none := by
  have r0 : Reach ⟨fun _ => none, 0, fun _ => none⟩ := .start
  have l1 : Legal ⟨fun _ => none, 0, fun _ => none⟩ (.construct 0 2 3) := ⟨rfl, by norm_num⟩
  obtain ⟨w1, s1⟩ := Option.isSome_iff_exists.1 (C70_defined r0 l1)
  have r1 : Reach w1 := .step r0 l1 s1
  have hc : construct ⟨fun _ => none, 0, fun _ => none⟩ 0 2 3 = some w1 := s1
  have hc' := hc
  rw [construct_spec _ (by norm_num)] at hc
  have l2 : Legal w1 (.destroy 0) := by cases hc; show _ ≠ none; simp [renew, setObj, put, withVal]
  obtain ⟨w2, s2⟩ := Option.isSome_iff_exists.1 (C70_defined r1 l2)
  have hd : destroy w1 0 = some w2 := s2
  refine ⟨w1, w2, hc', hd, C70_no_leak (.step r1 l2 s2) fun x => ?_⟩
  obtain ⟨o, -, h2⟩ := Option.bind_eq_some_iff.1 hd
  obtain ⟨w3, h3, rfl⟩ := Option.map_eq_some_iff.1 h2
  have h4 : w3.obj = w1.obj := by
    unfold free at h3
    split at h3
    · cases h3; rfl
    · obtain ⟨_, -, rfl⟩ := Option.map_eq_some_iff.1 h3
      rfl
  by_cases hx : x = 0
  · subst hx; simp [setObj, put]
  · simp only [setObj, put, hx, if_false, h4]
    cases hc; simp [renew, setObj, put, withVal, hx]

end arrays

/-! ## C107 -/

section text
open ArrText

theorem row_proper : Proper ⟨1, 3, fun k => [2, 1, 7][k]?⟩ := ⟨by norm_num, by norm_num, by norm_num, fun k hk => by
  have : k = 0 ∨ k = 1 ∨ k = 2 := by
    have : (1 : ℤ).toNat * (3 : ℤ).toNat = 3 := rfl
    simp only [this] at hk; omega
  rcases this with rfl | rfl | rfl <;> rfl⟩

example := C107_round_trip_refuted row_proper (by norm_num) ⟨0, 0, fun _ => none⟩
example := C107_with_dimensions_partial row_proper ⟨0, 0, fun _ => none⟩ [4, 5]

end text

open Msh Out

/-! ## C80 -/

example := C80_isentropic_iff FVENS.air (u := uEx) (v := ![4, 1, 3, 10]) (by norm_num [uEx]) (by norm_num)
  (by simp [Gas.pressure, Gas.pressureOfInternal, FVENS.air, dot, mom, uEx]; norm_num)
example := C80_mesh_size_iff (n := 100) (N := 400) (by norm_num) (by norm_num)

/-! ## C91, C92 -/

theorem air_g : FVENS.air.g ≠ 1 := by norm_num [FVENS.air]
/-- connectivity of `cross` -/
noncomputable def crossT : FState := FV.Geo.cross_topological.choose
theorem crossT_ok : topological FV.Geo.cross = .ok crossT := FV.Geo.cross_topological.choose_spec.1
/-- density 1 + i in cell i -/
noncomputable def dens (i : ℕ) : St := ![1 + i, 1, 3, 10]
theorem dens0 : ∀ i, i < FV.Geo.cross.nelem → dens i 0 ≠ 0 := fun i _ => by simp [dens]; positivity

example := C91_cell_arrays FVENS.air air_g FV.Geo.cross uEx (by norm_num [uEx]) 2
example := C91_defined_iff FVENS.air (1 / 10) Par.cross_conforming (by decide +kernel) crossT_ok dens (fun _ _ => 0) [1, 2] [1]
example := C91_volume_file FVENS.air air_g FV.Geo.cross dens dens0
example : exportVolume FVENS.air FV.Geo.cross dens ≠ exportVolume FVENS.air FV.Geo.cross fun _ => uEx := fun h => by
  have := congrFun (C91_volume_injective FVENS.air air_g FV.Geo.cross dens0 (fun _ _ => by norm_num [uEx]) h (i := 0) (by decide +kernel)) 0
  norm_num [dens, uEx] at this
example : ∃ b, writeBlock 2 ⟨2, 2, fun k => k⟩ ["a", "b"] ⟨2, 2, fun k => 10 * k⟩ "v" = some (some b) ∧ b.arrays.length = 3 := by
  have h : writeBlock 2 ⟨2, 2, fun k => k⟩ ["a", "b"] ⟨2, 2, fun k => 10 * k⟩ "v" = some (some _) := rfl
  exact ⟨_, h, by rw [(C92_contents h).2.2]; simp [Arr.size]⟩
example := C92_run FVENS.air exMesh (by decide +kernel) (fun _ => 1) dens

/-! ## C67 -/

theorem ex_around : (around exMesh 1).Nonempty := ⟨0, around_mem.2 ⟨by decide, 1, by decide, by decide⟩⟩

example := C67_quarter exMesh_lin (fun i => i + 1) dens 1 0
example := C67_refuted FVENS.air exMesh_lin (ar := fun i => i + 1) (fun i _ => by positivity) (c := uEx) (by norm_num [uEx]) ex_around
example := C67_row_partial FVENS.air exMesh_lin (fun i => i + 1) (fun _ => uEx) 1 (by
  rw [(C67_constant exMesh_lin (ar := fun i => i + 1) (fun i _ => by positivity) uEx ex_around).1]; norm_num [uEx])
example : (scalarPoint exMesh (fun _ => 1) 2 fun i => i).isSome ≠ true := fun h => by
  have := (C67_scalar_defined_iff exMesh_lin (fun _ => 1) fun i => (i : ℝ)).1 h
  exact absurd this (by decide)

/-! ## C69: a plate; the sides of a triangle on two processes -/

/-- the sides of a triangle -/
noncomputable def tri3 : List (List WallFace) := [[side ![0, 0] ![1, 0], side ![0, 1] ![0, 0]], [side ![1, 0] ![0, 1]]]
theorem tri3_wall : wall 3 tri3 = [side ![0, 0] ![1, 0], side ![0, 1] ![0, 0], side ![1, 0] ![0, 1]] := by simp [wall, side, tri3]
theorem tri3_len : wallLen (wall 3 tri3) ≠ 0 := by
  have hne : ∀ {a b : V2}, a ≠ b → 0 < (side a b).len := fun h => fLen_pos h
  rw [tri3_wall]
  have h1 : 0 < (side ![0, 0] ![1, 0]).len := hne (fun h => by have := congrFun h 0; simp at this)
  have h2 : 0 < (side ![0, 1] ![0, 0]).len := hne (fun h => by have := congrFun h 1; simp at this)
  have h3 : 0 < (side ![1, 0] ![0, 1]).len := hne (fun h => by have := congrFun h 0; simp at this)
  simp only [wallLen, List.map_cons, List.map_nil, List.sum_cons, List.sum_nil]
  linarith
theorem plate_wall : wall 3 [[plate]] = [plate] := by simp [wall, plate]

example := C69_pressure FVENS.air 1 3 tri3 tri3_len
example : coefficients FVENS.air 1 3 tri3 = coefficients FVENS.air 1 3 [[side ![1, 0] ![0, 1]], [side ![0, 1] ![0, 0], side ![0, 0] ![1, 0]]] :=
  C69_distribution FVENS.air 1 3 (by
    simp only [tri3, List.flatten_cons, List.flatten_nil, List.append_nil, List.cons_append, List.nil_append]
    exact (List.reverse_perm [_, _, _]).symm)
example := C69_friction_partial FVENS.air 0 3 [[plate]] (by rw [plate_wall]; simp [wallLen, plate])
  (by rw [plate_wall]; intro F hF; rw [List.mem_singleton.1 hF]; simp [plate]) (by rw [plate_wall]; intro F hF; rw [List.mem_singleton.1 hF]; simp [plate])
example := C69_friction_sign_refuted Out.air (by
  have hT : Out.air.temperatureC plate.u = 7 / 50 := by
    simp [Gas.temperatureC, Gas.temperature, Gas.pressure, Gas.pressureOfInternal, plate, Out.air, dot, mom]; norm_num
  unfold Gas.viscosityC
  rw [hT]
  unfold Gas.viscosityT sC Out.air
  positivity)
/-- two sides of a flat plate at equal pressure -/
example : ∃ cdf, coefficients FVENS.air 1 3 [[plate], [plate.rev]] = some (0, 0, cdf) := by
  have hw : wall 3 [[plate], [plate.rev]] = [plate, plate.rev] := by simp [wall, plate, WallFace.rev]
  refine C69_uniform_pressure FVENS.air 1 3 [[plate], [plate.rev]] (by rw [hw]; simp [wallLen, plate, WallFace.rev]) (p := FVENS.air.pressure plate.u) ?_ ?_
  · rw [hw]
    intro F hF
    simp only [List.mem_cons, List.not_mem_nil, or_false] at hF
    rcases hF with rfl | rfl <;> rfl
  · intro d
    rw [hw]
    fin_cases d <;> simp [plate, WallFace.rev]
example := C69_viscosity_law_refuted Out.air (by norm_num [Out.air]) (by norm_num [Out.air])

/-! ## C112: two squares, their mirror image in the line between them, wind along that line -/

section lift
open FV Flux Par Ode

/-- connectivity of `pair` and of its half -/
noncomputable def pairS : FState := pair_topological.choose
theorem pairS_ok : topological pair = .ok pairS := pair_topological.choose_spec.1
noncomputable def halfS : FState := halfPair_topological.choose
theorem halfS_ok : topological halfPair = .ok halfS := halfPair_topological.choose_spec
/-- the discretisation -/
noncomputable def pairD : Disc := (airOut .vanLeer).disc pair pairS 0
theorem pairD_ok : pairD.G.Ok := ⟨pair_conforming, pair_nozero, pairS_ok⟩
theorem pairD_sym : Disc.Mirrored atOne pairD pairD swap2 swapB fun _ f => (4 - f) % 4 := (pair_cut pairS_ok halfS_ok .vanLeer).sym
theorem pair_walls : WallsMatch pairD.G.m pairD.G.m swapB := ⟨rfl, fun k k' hk hk' e => by
  have hk : k < 6 := hk
  have hk' : k' < 6 := hk'
  unfold swapB at e
  split_ifs at e <;> omega, fun _ _ => rfl⟩
theorem wind_sym : atOne.dir (windDir (Real.pi / 2)) = windDir (Real.pi / 2) := by
  obtain ⟨e0, e1⟩ := wind_unit (Real.pi / 2)
  rw [Real.cos_pi_div_two] at e0
  rw [Real.sin_pi_div_two] at e1
  funext d
  fin_cases d <;> simp [Reflection.dir, refV, atOne, e0, e1]
/-- flow towards the line in both squares -/
noncomputable def pairU : ℕ → St := two ![1, 1, 2, 5] ![1, -1, 2, 5]
theorem pairU_sym : Symmetric atOne pairD swap2 pairU := fun i hi => by
  have hi : i < 2 := hi
  obtain rfl | rfl : i = 0 ∨ i = 1 := by omega
  all_goals
    funext v
    fin_cases v <;> simp [pairU, two, swap2, Reflection.st, refS, atOne]
theorem pairU_adm : ∀ i, i < pairD.G.m.nelem → Adm pairD.gas (pairU i) := fun i _ => by
  unfold pairU two
  split_ifs
  · exact ⟨by show 1 < FVENS.air.g; norm_num [FVENS.air], by norm_num, by simp [Gas.pressure, Gas.pressureOfInternal, dot, mom, pairD, Settings.disc, airOut, FVENS.air]; norm_num⟩
  · exact ⟨by show 1 < FVENS.air.g; norm_num [FVENS.air], by norm_num, by simp [Gas.pressure, Gas.pressureOfInternal, dot, mom, pairD, Settings.disc, airOut, FVENS.air]; norm_num⟩

example := C112_mirror pairD_ok pairD_ok pairD_sym pair_walls (u := dens) (u' := fun i => atOne.st (dens (swap2 i))) (fun _ _ => rfl) wind_sym.symm
  (fun _ _ => 0) (fun _ _ => 1) 1
example := C112_friction pairD_ok pairD_ok pairD_sym pair_walls (u := dens) (u' := fun i => atOne.st (dens (swap2 i))) (fun _ _ => rfl)
  (g := fun i _ _ => i) (g' := fun i => grRef atOne ((fun i _ _ => (i : ℝ)) (swap2 i))) (fun _ _ => rfl) wind_sym.symm 1
example (c : ℝ × ℝ × ℝ) := C112_no_lift pairD_ok pairD_sym pair_walls pairU_sym wind_sym (fun _ _ => 0) 1 (c := c)
/-- ten iterations -/
example : ∃ k out s', Solve forwardEuler (single pairD) ⟨0, 10, 1, 1⟩ pairU k out ∧ topological (atOne.mesh pair) = .ok s' ∧
    Solve forwardEuler (single ((atOne.settings (airOut .vanLeer)).disc (atOne.mesh pair) s' 0)) ⟨0, 10, 1, 1⟩ (fun i => atOne.st (pairU i)) k out := by
  have hpos := (C93_run_partial pairD_ok rfl (by show 4 ≤ 3 * FVENS.air.g; norm_num [FVENS.air]) (by show FVENS.air.g ≤ 3; norm_num [FVENS.air]) rfl (fun k _ => ⟨.extrapolation, rfl, trivial⟩) rfl
    (fun i hi => by show 0 < (area pair i).getD 0; rw [pair_area hi]; norm_num) (c := ⟨0, 10, 1, 1⟩) (by norm_num) (by norm_num) pairU_adm).1
  obtain ⟨⟨k, out, h⟩, -⟩ := C56_terminates forwardEuler (single pairD) ⟨0, 10, 1, 1⟩ pairU
  obtain ⟨s', h1, h2, -⟩ := C112_mirror_run atOne (P := airOut .vanLeer) pair_conforming rfl pair_nozero pairS_ok rfl
    (fun _ _ => rfl) (by show 4 ≤ 3 * FVENS.air.g; norm_num [FVENS.air]) h
    (fun j _ t ht => by obtain ⟨t', h1, h2⟩ := hpos j; cases h1.symm.trans ht; exact h2) (aoa := Real.pi / 2) (aoa' := Real.pi / 2) wind_sym.symm
  exact ⟨k, out, s', h, h1, h2⟩

end lift

end FVENS.Cases
