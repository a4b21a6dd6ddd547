import Verif.Par.MatrixFree
import Verif.Par.SecondOrder

/-!
# Matrix-free products of the second-order discretisation on several processes (C121)

`MatrixFreeSpatialJacobian::apply`, src/linalg/alinalg.cpp:142-233, as in `Verif.Par.MatrixFree`, with any gradient and reconstruction scheme. The data a process receives during the
evaluation and the previous contents of its arrays are given by `E`, as in `rankEval2`.
-/

namespace FVENS
namespace Par

open Msh FV Flux Ode Lin
open Finset (range)

/-! ### Model -/

open Classical in
/-- `apply` on one process with the second-order residual, src/linalg/alinalg.cpp:142-233. -/
noncomputable def mfOne2 (D : Disc) (gs : GradScheme) (R : ReconScheme) (E : (ℕ → St) → Disc.Env) (eps : ℝ) (u res : ℕ → St) (mdt : ℕ → ℝ) (x : ℕ → St) : Option (ℕ → St) :=
  let xnorm := Real.sqrt (∑ i ∈ range D.G.m.nelem, ∑ v, x i v ^ 2)
  let pert := eps / xnorm
  if xnorm = 0 ∨ pert = 0 then none
  else (D.residual2 gs R (E (perturbed pert u x)) (perturbed pert u x) 0).map fun o i v => mdt i * x i v + (-o.res i v + res i v) / pert

section world
variable (P : Settings) (gm : Mesh) (s : FState) (dist : ℕ → ℕ) (n : ℕ) (gs : GradScheme) (R : ReconScheme) (E : (ℕ → ℕ → St) → ℕ → Disc.Env)

/-- Local array of `yg` of rank `r` after `compute_residual`, src/linalg/alinalg.cpp:192-196; the ghost blocks of `aux` are up to date. -/
noncomputable def ygEval2 (gh : ℕ → ℕ → St) (aux : ℕ → ℕ → St) (r : ℕ) : Option (ℕ → St) :=
  match restrict gm s dist r with
  | .ok S => match topological S.mesh with
    | .ok s' => ((P.rank gm s dist n r S s').residual2 gs R (E aux r) (rankArray gm s dist n aux r S) (ygStart S (gh r))).map fun o => o.res
    | _ => none
  | _ => none

/-- The same as a total function. -/
noncomputable def ygRes2 (gh : ℕ → ℕ → St) (aux : ℕ → ℕ → St) (r : ℕ) : ℕ → St := (ygEval2 P gm s dist n gs R E gh aux r).getD 0

open Classical in
/-- `apply` on `n` processes, src/linalg/alinalg.cpp:142-233. -/
noncomputable def mfRanks2 (eps : ℝ) (U Rs : ℕ → ℕ → St) (mdt : ℕ → ℕ → ℝ) (gh X : ℕ → ℕ → St) : Option (ℕ → ℕ → St) :=
  let xnorm := normAll gm s dist n X
  let pert := eps / xnorm
  if xnorm = 0 ∨ pert = 0 then none
  else if ∀ r, r < n → (ygEval2 P gm s dist n gs R E gh (fun q => perturbed pert (U q) (X q)) r).isSome then
    some fun r l v => mdt r l * X r l v +
      (-ghostAdd gm s dist n (ygRes2 P gm s dist n gs R E gh fun q => perturbed pert (U q) (X q)) r l v + Rs r l v) / pert
  else none

end world

/-! ### Proofs -/

theorem residual2_start (D : Disc) (gs : GradScheme) (R : ReconScheme) (E : Disc.Env) (u r : ℕ → St) :
    D.residual2 gs R E u r = (D.residual2 gs R E u 0).map fun o => ⟨o.uL, o.uR, fun l => r l + o.res l⟩ := by
  unfold Disc.residual2
  split_ifs
  · simp only [Option.map_map]
    congr 1
    funext a
    simp only [Function.comp, Disc.fluxes]
    congr 1
    funext l
    rw [assemble_eq, assemble_eq, Pi.zero_apply, zero_add]
  · rfl

theorem ygEval2_eq (P : Settings) (gm : Mesh) (s : FState) (dist : ℕ → ℕ) (n : ℕ) (gs : GradScheme) (R : ReconScheme) (E : (ℕ → ℕ → St) → ℕ → Disc.Env) (gh aux : ℕ → ℕ → St) {r : ℕ}
    {S : Sub} (hS : restrict gm s dist r = .ok S) :
    ygEval2 P gm s dist n gs R E gh aux r = (rankEval2 P gm s dist n gs R E aux r).map fun p l => ygStart S (gh r) l + p.2.res l := by
  unfold ygEval2 rankEval2
  simp only [hS]
  cases topological S.mesh with
  | ok s' =>
    simp only [residual2_start _ _ _ _ _ (ygStart S (gh r)), Option.map_map]
    rfl
  | _ => rfl

section
variable {gm : Mesh} {s : FState} {dist : ℕ → ℕ} (hc : Conforming gm) (hn : gm.nconnface = 0) (ht : gm.nbtag ≤ 4) (h : topological gm = .ok s)
  (hz : NoZeroFace gm) (hall : AllRegistered gm s dist) {n : ℕ} (hd : ∀ g, g < gm.nelem → dist g < n)
  (hmono : ∀ i j, i < j → j < gm.nelem → dist i ≤ dist j) (P : Settings)
include hc hn ht h hz hall hd hmono

/-- C121, second order: as `C121_product_partial`, for every gradient and reconstruction scheme, inviscid or viscous. `hsw` says that the single process's residual of the perturbed state
is defined and its flux treats the reconstructed states of the two sides of inner faces alike (true of admissible states, `swapOk_of_adm`). -/
theorem C121_second_order_partial {gs : GradScheme} {R : ReconScheme} (E0 : (ℕ → St) → Disc.Env) {E : (ℕ → ℕ → St) → ℕ → Disc.Env}
    {S : ℕ → Sub} {s' : ℕ → FState} (hS : ∀ r, restrict gm s dist r = .ok (S r)) (hs' : ∀ r, topological (S r).mesh = .ok (s' r))
    (hE : ∀ loc, Received gm s dist n gs R S (fun r => P.rank gm s dist n r (S r) (s' r)) (fun r => rankArray gm s dist n loc r (S r)) (E loc))
    {eps : ℝ} (he : eps ≠ 0) {u res x : ℕ → St} {mdt : ℕ → ℝ} {U Rs X : ℕ → ℕ → St} {M : ℕ → ℕ → ℝ}
    (hU : Represents gm s dist U u) (hR : Represents gm s dist Rs res) (hM : Represents gm s dist M mdt) (hX : Represents gm s dist X x) (gh : ℕ → ℕ → St)
    {pert : ℝ} (hp : pert = eps / Real.sqrt (∑ i ∈ range gm.nelem, ∑ v, x i v ^ 2)) (hx : ∃ i, i < gm.nelem ∧ x i ≠ 0)
    (hsw : ∃ o, (P.disc gm s 0).residual2 gs R (E0 (perturbed pert u x)) (perturbed pert u x) 0 = some o ∧
      ∀ k, k < (P.disc gm s 0).G.nface → (P.disc gm s 0).G.inner k → (P.disc gm s 0).SwapOk (o.uR k) (o.uL k)) :
    ∃ y Y, mfOne2 (P.disc gm s 0) gs R E0 eps u res mdt x = some y ∧ mfRanks2 P gm s dist n gs R E eps U Rs M gh X = some Y ∧
      ∀ r, r < n → ∀ l g, (S r).cells[l]? = some g → ∀ v, Y r l v = y g v - stray n S gh g v / pert := by
  have hnorm : Real.sqrt (∑ i ∈ range gm.nelem, ∑ v, x i v ^ 2) ≠ 0 := by
    obtain ⟨i, hi, hxi⟩ := hx
    obtain ⟨v, hv⟩ := Function.ne_iff.1 hxi
    refine (Real.sqrt_pos.2 (Finset.sum_pos' (fun j _ => Finset.sum_nonneg fun v _ => sq_nonneg _) ⟨i, Finset.mem_range.2 hi, ?_⟩)).ne'
    refine Finset.sum_pos' (fun v _ => sq_nonneg _) ⟨v, Finset.mem_univ v, ?_⟩
    have : x i v ≠ 0 := hv
    positivity
  have hpne : pert ≠ 0 := by rw [hp]; exact div_ne_zero he hnorm
  have haux := perturbed_represents hU hX pert
  obtain ⟨o, ho, hr⟩ := agree_second hc hn ht h hd hz hall hmono P (E0 := E0) haux hS hs' (hE _) hsw
  beta_reduce at ho
  have hev : ∀ r, ∃ o' : ℕ → St, r < n → (ygEval2 P gm s dist n gs R E gh (fun q => perturbed pert (U q) (X q)) r = some (fun l => ygStart (S r) (gh r) l + o' l) ∧
      (∀ l, l < (S r).mesh.nelem → o' l = o.res ((S r).cells.getD l 0)) ∧ ∀ l, (S r).mesh.nelem ≤ l → o' l = 0) := fun r => by
    by_cases hrn : r < n
    · obtain ⟨S', D, o', h1, h2, -, h3, h4⟩ := hr r hrn
      rw [hS r] at h1; cases h1
      exact ⟨o'.res, fun _ => ⟨by rw [ygEval2_eq _ _ _ _ _ _ _ _ _ _ (hS r), h2, Option.map_some], fun l hl => (h3 l hl).1, h4⟩⟩
    · exact ⟨0, fun h => absurd h hrn⟩
  choose o' hev using hev
  have hygr : ∀ r, r < n → ygRes2 P gm s dist n gs R E gh (fun q => perturbed pert (U q) (X q)) r = fun l => ygStart (S r) (gh r) l + o' r l := fun r hrn => by
    rw [ygRes2, (hev r hrn).1, Option.getD_some]
  have hn' := normAll_eq hc hn ht h hd hX
  refine ⟨fun i v => mdt i * x i v + (-o.res i v + res i v) / pert,
    fun r l v => M r l * X r l v + (-ghostAdd gm s dist n (ygRes2 P gm s dist n gs R E gh fun q => perturbed pert (U q) (X q)) r l v + Rs r l v) / pert, ?_, ?_, ?_⟩
  · unfold mfOne2
    simp only [show (P.disc gm s 0).G.m.nelem = gm.nelem from rfl, ← hp]
    rw [if_neg (by rintro (h1 | h1); exacts [hnorm h1, hpne h1]), ho, Option.map_some]
  · unfold mfRanks2
    simp only [hn', ← hp]
    rw [if_neg (by rintro (h1 | h1); exacts [hnorm h1, hpne h1]), if_pos fun r hrn => by rw [(hev r hrn).1]; rfl]
  · intro r hrn l g hl v
    obtain ⟨S', hS', hsub, -⟩ := restrict_spec hc hn ht h dist r
    rw [hS r] at hS'; cases hS'
    have hll : l < (S r).mesh.nelem := by rw [hsub.nelem]; exact (List.getElem?_eq_some_iff.1 hl).1
    have hgg : (S r).cells.getD l 0 = g := by rw [List.getD_eq_getElem?_getD, hl, Option.getD_some]
    have hadd : ghostAdd gm s dist n (ygRes2 P gm s dist n gs R E gh fun q => perturbed pert (U q) (X q)) r l = o.res g + stray n S gh g := by
      rw [C88_ghost_sum_partial hc hn ht h hmono hS _ hl, hygr r hrn]
      simp only
      rw [ygStart_own _ _ hll, zero_add, (hev r hrn).2.1 l hll, hgg]
      congr 1
      unfold stray
      refine Finset.sum_congr rfl fun q hq => Finset.sum_congr rfl fun ic _ => ?_
      rw [hygr q (Finset.mem_range.1 hq)]
      simp only
      rw [(hev q (Finset.mem_range.1 hq)).2.2 _ (by omega), add_zero]
    simp only
    rw [hadd, hM r (S r) (hS r) l g hl, hX r (S r) (hS r) l g hl, hR r (S r) (hS r) l g hl, Pi.add_apply]
    field_simp
    ring

/-- C121, second order, ghost blocks of the auxiliary vector zero when made: the processes compute the single process's product. -/
theorem C121_second_order_zeroed_partial {gs : GradScheme} {R : ReconScheme} (E0 : (ℕ → St) → Disc.Env) {E : (ℕ → ℕ → St) → ℕ → Disc.Env}
    {S : ℕ → Sub} {s' : ℕ → FState} (hS : ∀ r, restrict gm s dist r = .ok (S r)) (hs' : ∀ r, topological (S r).mesh = .ok (s' r))
    (hE : ∀ loc, Received gm s dist n gs R S (fun r => P.rank gm s dist n r (S r) (s' r)) (fun r => rankArray gm s dist n loc r (S r)) (E loc))
    {eps : ℝ} (he : eps ≠ 0) {u res x : ℕ → St} {mdt : ℕ → ℝ} {U Rs X : ℕ → ℕ → St} {M : ℕ → ℕ → ℝ}
    (hU : Represents gm s dist U u) (hR : Represents gm s dist Rs res) (hM : Represents gm s dist M mdt) (hX : Represents gm s dist X x)
    {pert : ℝ} (hp : pert = eps / Real.sqrt (∑ i ∈ range gm.nelem, ∑ v, x i v ^ 2)) (hx : ∃ i, i < gm.nelem ∧ x i ≠ 0)
    (hsw : ∃ o, (P.disc gm s 0).residual2 gs R (E0 (perturbed pert u x)) (perturbed pert u x) 0 = some o ∧
      ∀ k, k < (P.disc gm s 0).G.nface → (P.disc gm s 0).G.inner k → (P.disc gm s 0).SwapOk (o.uR k) (o.uL k)) :
    ∃ y Y, mfOne2 (P.disc gm s 0) gs R E0 eps u res mdt x = some y ∧ mfRanks2 P gm s dist n gs R E eps U Rs M (fun _ _ => 0) X = some Y ∧
      ∀ r, r < n → ∀ l g, (S r).cells[l]? = some g → Y r l = y g := by
  obtain ⟨y, Y, h1, h2, h3⟩ := C121_second_order_partial hc hn ht h hz hall hd hmono P E0 hS hs' hE he hU hR hM hX (fun _ _ => 0) hp hx hsw
  refine ⟨y, Y, h1, h2, fun r hr l g hl => funext fun v => ?_⟩
  have : stray n S (fun _ _ => 0) g = 0 := by
    unfold stray
    refine Finset.sum_eq_zero fun q _ => Finset.sum_eq_zero fun ic _ => ?_
    rw [show ygStart (S q) (fun _ => 0) ((S q).mesh.nelem + ic) = 0 from ygStart_zero _ _]
    simp
  rw [h3 r hr l g hl v, this, Pi.zero_apply, zero_div, sub_zero]

end

/-! ### Example -/

/-- Hypotheses of `C121_second_order_partial` and `C121_second_order_zeroed_partial` are met: Green-Gauss gradients and MUSCL on two ranks, whatever is left in the ghost blocks. -/
example (E1 : Disc.Env) {eps : ℝ} (he : 0 < eps) (res : ℕ → St) (mdt : ℕ → ℝ) (gh : ℕ → ℕ → St) : ∃ s, topological FV.Geo.cross = .ok s ∧ ∃ E y Y,
    mfOne2 ((air1 (rest 1)).disc FV.Geo.cross s 0) .greenGauss .muscl (fun _ => E1) eps bump res mdt denser = some y ∧
    mfRanks2 (air1 (rest 1)) FV.Geo.cross s (fun i => i / 2) 2 .greenGauss .muscl E eps (split FV.Geo.cross s (fun i => i / 2) bump) (split FV.Geo.cross s (fun i => i / 2) res)
      (split FV.Geo.cross s (fun i => i / 2) mdt) gh (split FV.Geo.cross s (fun i => i / 2) denser) = some Y ∧
    ∃ (S : ℕ → Sub) (Y0 : ℕ → ℕ → St), (∀ r, restrict FV.Geo.cross s (fun i => i / 2) r = .ok (S r)) ∧ (∀ r, r < 2 → ∀ l g, (S r).cells[l]? = some g → Y0 r l = y g) ∧
      (∀ r, r < 2 → ∀ l g, (S r).cells[l]? = some g → ∀ v, Y r l v = y g v - stray 2 S gh g v / (eps / Real.sqrt (∑ i ∈ range FV.Geo.cross.nelem, ∑ v, denser i v ^ 2))) := by
  obtain ⟨s, hs, -⟩ := FV.Geo.cross_topological
  have hne : FV.Geo.cross.nelem = 4 := by decide +kernel
  have hd : ∀ g, g < FV.Geo.cross.nelem → g / 2 < 2 := fun g hg => by omega
  have hmono : ∀ i j, i < j → j < FV.Geo.cross.nelem → i / 2 ≤ j / 2 := fun i j h _ => Nat.div_le_div_right h.le
  have hok : ((air1 (rest 1)).disc FV.Geo.cross s 0).G.Ok := ⟨cross_conforming, FV.Geo.cross_nozero, hs⟩
  choose S hS _ using fun r => restrict_spec cross_conforming rfl (by decide +kernel) hs (fun i => i / 2) r
  choose s' hs' using fun r => sub_topological cross_conforming rfl (by decide +kernel) hs (hS r)
  obtain ⟨E, hE⟩ := receivedAll_exists cross_conforming rfl (by decide +kernel) hs hd (cross_all hs _) hmono (air1 (rest 1)) .greenGauss .muscl (s' := s') hS fun _ => E1
  obtain ⟨o, ho⟩ := residual2_defined hok (fun k _ => rfl) (gs := .greenGauss) (R := .muscl) (show Disc.ReconOk .muscl from trivial)
    (fun h => by rcases h with h | ⟨K, h⟩ <;> cases h) E1 (perturbed (eps / Real.sqrt (∑ i ∈ range FV.Geo.cross.nelem, ∑ v, denser i v ^ 2)) bump denser) 0
  obtain ⟨y, Y, h1, h2, h3⟩ := C121_second_order_partial cross_conforming rfl (by decide +kernel) hs FV.Geo.cross_nozero (cross_all hs _) hd hmono (air1 (rest 1))
    (fun _ => E1) hS hs' hE he.ne' (split_represents _ _ _ bump) (split_represents _ _ _ res) (split_represents _ _ _ mdt) (split_represents _ _ _ denser) gh rfl
    ⟨0, by omega, fun h0 => by have := congrFun h0 0; simp [denser] at this⟩ ⟨o, ho, fun k _ _ n _ v => llf_swap air _ _ n v⟩
  obtain ⟨y0, Y0, g1, g2, g3⟩ := C121_second_order_zeroed_partial cross_conforming rfl (by decide +kernel) hs FV.Geo.cross_nozero (cross_all hs _) hd hmono (air1 (rest 1))
    (fun _ => E1) hS hs' hE he.ne' (split_represents _ _ _ bump) (split_represents _ _ _ res) (split_represents _ _ _ mdt) (split_represents _ _ _ denser) rfl
    ⟨0, by omega, fun h0 => by have := congrFun h0 0; simp [denser] at this⟩ ⟨o, ho, fun k _ _ n _ v => llf_swap air _ _ n v⟩
  rw [h1] at g1; cases g1
  exact ⟨s, hs, E, y, Y, h1, h2, S, Y0, hS, g3, h3⟩

end Par
end FVENS
