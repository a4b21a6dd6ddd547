import Verif.Par.UpstreamLayer
import Verif.Par.SecondOrder

/-!
# Second-order runs against a supersonic stream (C98)

Influence against the stream travels at most one layer of cells in each iteration of the explicit solver with linear reconstruction.
-/

namespace FVENS
namespace Par

open Msh FV FV.Disc Flux Ode
open Finset (range sum_congr mem_range mem_filter)

section
variable {D : Disc} {gs : GradScheme} {E : Env} {U : ℕ → Prop} {u w : ℕ → St} {o o' : Disc.Out}

/-- C98, second order: local time steps in a set of cells are determined by the states in the set and in the cells next to it, whichever way the gas moves. -/
theorem C98_second_order_timestep (h : D.G.Ok) {r r' : ℕ → St} (ho : D.residual2 gs .linear E u r = some o) (ho' : D.residual2 gs .linear E w r' = some o')
    (he : ∀ j, Near D U j → u j = w j) {i : ℕ} (hi : i < D.G.m.nelem) (hU : U i) : D.timestep o.uL o.uR i = D.timestep o'.uL o'.uR i := by
  unfold Disc.timestep
  rw [Disc.C51_integral h _ _ hi, Disc.C51_integral h _ _ hi]
  congr 1
  refine sum_congr rfl fun k hk => ?_
  obtain ⟨hk, ht⟩ := mem_filter.1 hk
  have hk := mem_range.1 hk
  unfold Disc.sideRad
  split_ifs with hl
  · have hUl : U (D.G.face k).left := by rw [hl]; exact hU
    rw [(linear_states h ho hk).1, (linear_states h ho' hk).1, recGrads_near h gs E he (h.kind hk).1 hUl, he _ (.inl hUl)]
  · have hr : (D.G.face k).right = i := ht.resolve_left hl
    have hUr : U (D.G.face k).right := by rw [hr]; exact hU
    have hin : D.G.inner k := (h.kind hk).2.2.2.1.2 (by omega)
    rw [(linear_states h ho hk).2 hin, (linear_states h ho' hk).2 hin, recGrads_near h gs E he ((h.kind hk).2.2.2.1.1 hin) hUr, he _ (.inl hUr)]

/-- C98, second order, runs of the explicit solver: let the sets `V 0`, `V 1`, … be such that the cells next to `V (j + 1)` are in `V j`, and let the gas leave `V (j + 1)` faster than
sound in iteration `j` of two runs. If the runs begin with the same states in `V 0`, they have the same states in `V n` after `n` iterations. -/
theorem C98_second_order_run (h : D.G.Ok) (hg : 4 ≤ 3 * D.gas.g) (hv : D.viscous = false) (cf : Conf) {V : ℕ → ℕ → Prop} (hV : ∀ j x, Near D (V (j + 1)) x → V j x)
    (he : ∀ i, V 0 i → u i = w i) (n : ℕ) {s t : Mem (ℕ → St)}
    (hs : traj forwardEuler (solver D fun x => D.residual2 gs .linear E x 0) cf u n = some s) (ht : traj forwardEuler (solver D fun x => D.residual2 gs .linear E x 0) cf w n = some t)
    (hlu : ∀ j, j < n → ∀ x o, traj forwardEuler (solver D fun x => D.residual2 gs .linear E x 0) cf u j = some x → D.residual2 gs .linear E x.u 0 = some o → LeavesFaces D (V (j + 1)) o)
    (hlw : ∀ j, j < n → ∀ x o, traj forwardEuler (solver D fun x => D.residual2 gs .linear E x 0) cf w j = some x → D.residual2 gs .linear E x.u 0 = some o → LeavesFaces D (V (j + 1)) o) :
    ∀ i, V n i → s.u i = t.u i := by
  induction n generalizing s t with
  | zero =>
    cases hs; cases ht
    exact he
  | succ n ih =>
    obtain ⟨s0, hs0, hs1⟩ := Option.bind_eq_some_iff.1 hs
    obtain ⟨t0, ht0, ht1⟩ := Option.bind_eq_some_iff.1 ht
    have ih := ih hs0 ht0 (fun j hj => hlu j (by omega)) (fun j hj => hlw j (by omega))
    have e : ∀ {x y : Mem (ℕ → St)}, body forwardEuler (solver D fun x => D.residual2 gs .linear E x 0) cf x = some y →
        ∃ o, D.residual2 gs .linear E x.u 0 = some o ∧ y.u = euler D cf.cflinit o o.res x.u := fun {x y} hxy => by
      unfold body at hxy
      dsimp only at hxy
      split at hxy
      · cases hxy
      · rename_i r hr
        cases hxy
        obtain ⟨o, ho, -⟩ := Option.bind_eq_some_iff.1 hr
        exact ⟨o, ho, by simp only [solver, ho]; rfl⟩
    obtain ⟨o, ho, e1⟩ := e hs1
    obtain ⟨o', ho', e2⟩ := e ht1
    intro i hi
    have hnear : ∀ j, Near D (V (n + 1)) j → s0.u j = t0.u j := fun j hj => ih j (hV n j hj)
    rw [e1, e2]
    unfold euler
    split_ifs with hin
    · rw [C98_second_order_timestep h ho ho' hnear hin hi,
        C98_second_order_layer h hg hv ho ho' hnear (hlu n (by omega) _ _ hs0 ho) (hlw n (by omega) _ _ ht0 ho') hin hi, hnear i (.inl hi)]
    · exact hnear i (.inl hi)

end

/-! ### Case -/

/-- Both cells of the example mesh, then the first one. -/
def cells : ℕ → ℕ → Prop
  | 0, q => q = 0 ∨ q = 1
  | 1, q => q = 0
  | _, _ => False

/-- Dense gas in the second cell of the example mesh, and beyond it gas of either density: after an iteration, the first cell holds the same gas. -/
example (E : Env) (cf : Conf) : ∃ s t, traj forwardEuler (solver exStill fun x => exStill.residual2 .greenGauss .linear E x 0) cf (dense (14 / 5) (14 / 5)) 1 = some s ∧
    traj forwardEuler (solver exStill fun x => exStill.residual2 .greenGauss .linear E x 0) cf (dense (14 / 5) (7 / 5)) 1 = some t ∧ s.u 0 = t.u 0 := by
  obtain ⟨-, o, -, ho, hf, ha, hb, -⟩ := dense_residual (b := 14 / 5) (z := 14 / 5) (by norm_num) le_rfl (by norm_num) le_rfl E
  obtain ⟨-, o', -, ho', hf', ha', hb', -⟩ := dense_residual (b := 14 / 5) (z := 7 / 5) (by norm_num) le_rfl (by norm_num) (by norm_num) E
  have har : ∀ i, i < 2 → 0 ≤ exStill.G.ar i := fun i hi => by
    show 0 ≤ exGeo.ar i
    obtain rfl | rfl : i = 0 ∨ i = 1 := by omega
    · show (0 : ℝ) ≤ 1; norm_num
    · show (0 : ℝ) ≤ 1 / 2; norm_num
  have hn : ∀ {x : ℕ → St} {o : Disc.Out}, exStill.residual2 .greenGauss .linear E x 0 = some o →
      ∃ s, traj forwardEuler (solver exStill fun x => exStill.residual2 .greenGauss .linear E x 0) cf x 1 = some s := fun {x o} ho => by
    have hnn : 0 ≤ energy exStill o.res := Finset.sum_nonneg fun l hl => mul_nonneg (mul_self_nonneg _) (har l (Finset.mem_range.1 hl))
    have hr : (solver exStill fun x => exStill.residual2 .greenGauss .linear E x 0).norm x = some (Real.sqrt (energy exStill o.res)) := by
      simp only [solver, ho, Option.bind_some, rootOf]; rw [if_pos hnn]
    refine Option.isSome_iff_exists.1 ?_
    simp only [traj, Option.bind_some, body, init, hr, Option.isSome_some]
  obtain ⟨s, hs⟩ := hn ho
  obtain ⟨t, ht⟩ := hn ho'
  refine ⟨s, t, hs, ht, C98_second_order_run (V := cells) exGeo_ok (by show 4 ≤ 3 * air.g; norm_num [air]) rfl cf (fun j x hx => ?_) (fun i hi => ?_) 1 hs ht (fun j hj x p hx hp => ?_)
    (fun j hj x p hx hp => ?_) 0 rfl⟩
  · match j with
    | 0 => exact exStill_near hx
    | 1 => rcases hx with hx | ⟨k, -, -, ⟨hx, -⟩ | ⟨hx, -⟩⟩ <;> exact hx.elim
    | j + 2 => rcases hx with hx | ⟨k, -, -, ⟨hx, -⟩ | ⟨hx, -⟩⟩ <;> exact hx.elim
  · rcases hi with rfl | rfl <;> simp [dense]
  · obtain rfl : j = 0 := by omega
    cases hx
    obtain rfl : o = p := Option.some.inj (ho.symm.trans hp)
    exact exStill_leaves hf ha hb
  · obtain rfl : j = 0 := by omega
    cases hx
    obtain rfl : o' = p := Option.some.inj (ho'.symm.trans hp)
    exact exStill_leaves hf' ha' hb'

end Par
end FVENS
