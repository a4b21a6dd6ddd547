import Verif.FV.Units
import Verif.FV.SimilarEx

/-!
# Units of mass and time (C99): gradients, second-order residual, runs of the explicit steady solver
-/

namespace FVENS

open Msh FV Flux Par Ode

namespace FV

section grad
variable (D : Disc) (w : St)

/-- Multiplication of each variable by its own factor, as a homomorphism. -/
def wHom : Gr →+ Gr := ⟨⟨fun g d v => w v * g d v, by funext d v; simp⟩, fun a b => by funext d v; simp; ring⟩

theorem ur_weight {u ug ug' : ℕ → St} {k : ℕ} (hug : k < D.G.m.nbface → ug' k = fun v => w v * ug k v) (v : Fin 4) :
    D.G.ur (fun i v => w v * u i v) ug' k v = w v * D.G.ur u ug k v := by
  unfold Geo.ur
  split_ifs with h
  · rw [hug h]
  · rfl

/-- C99, gradients: multiplying each variable by its own factor multiplies its gradient by the same factor, for all gradient schemes. -/
theorem C99_gradients (gs : GradScheme) {u ug ug' : ℕ → St} (hug : ∀ k, k < D.G.m.nbface → ug' k = fun v => w v * ug k v) (old : ℕ → Gr) (i : ℕ) :
    D.gradients gs (fun i v => w v * u i v) ug' (fun i d v => w v * old i d v) i = fun d v => w v * D.gradients gs u ug old i d v := by
  unfold Disc.gradients
  split_ifs with hn
  · cases gs with
    | zero => funext d v; simp
    | greenGauss =>
      have hut : ∀ k v, D.G.ut (fun i v => w v * u i v) ug' k v = w v * D.G.ut u ug k v := fun k v => by
        unfold Geo.ut
        rw [ur_weight D w (hug k)]
        ring
      show D.G.greenGauss _ _ i = wHom w (D.G.greenGauss u ug i)
      unfold Geo.greenGauss
      rw [accum_eq, accum_eq, map_add, map_sum]
      congr 1
      · exact (map_zero (wHom w)).symm
      · refine Finset.sum_congr rfl fun k _ => ?_
        rw [map_add]
        congr 1
        · split_ifs
          · funext d v; show D.G.ggL _ _ k d v = w v * D.G.ggL u ug k d v
            unfold Geo.ggL; rw [hut]; ring
          · exact (map_zero (wHom w)).symm
        · split_ifs
          · funext d v; show D.G.ggR _ _ k d v = w v * D.G.ggR u ug k d v
            unfold Geo.ggR; rw [hut]; ring
          · exact (map_zero (wHom w)).symm
    | wls =>
      have hr : D.G.lsRhs (fun i v => w v * u i v) ug' i = D.G.lsRhs u ug i * Matrix.diagonal w := by
        let H : Matrix (Fin 2) (Fin 4) ℝ →+ Matrix (Fin 2) (Fin 4) ℝ := ⟨⟨fun A => A * Matrix.diagonal w, Matrix.zero_mul _⟩, fun A B => Matrix.add_mul A B _⟩
        show _ = H _
        unfold Geo.lsRhs
        rw [accum_eq, accum_eq, map_add, map_sum, map_zero]
        congr 1
        refine Finset.sum_congr rfl fun k _ => ?_
        have key : (Matrix.of fun a j => D.G.w2 k * D.G.dr k a * (w j * u (D.G.face k).left j - D.G.ur (fun i v => w v * u i v) ug' k j) : Matrix (Fin 2) (Fin 4) ℝ) =
            H (Matrix.of fun a j => D.G.w2 k * D.G.dr k a * (u (D.G.face k).left j - D.G.ur u ug k j)) := by
          ext a j
          show _ = ((_ : Matrix (Fin 2) (Fin 4) ℝ) * Matrix.diagonal w) a j
          rw [Matrix.mul_diagonal, Matrix.of_apply, Matrix.of_apply, ur_weight D w (hug k)]
          ring
        rw [map_add]
        congr 1 <;> split_ifs
        · exact key
        · exact (map_zero H).symm
        · exact key
        · exact (map_zero H).symm
      funext d v
      show D.G.wls _ _ i d v = w v * D.G.wls u ug i d v
      unfold Geo.wls
      rw [hr, ← Matrix.mul_assoc, Matrix.mul_diagonal, mul_comm]
  · rfl

end grad

section second
variable (T : Units) (D : Disc)

/-- The factors of `Units.pr` (density, velocity, pressure). -/
def _root_.FVENS.Units.w : St := ![T.a, T.b, T.b, T.a * T.b ^ 2]

theorem pr_w (u : St) : T.pr u = fun v => T.w v * u v := by
  funext v; fin_cases v <;> simp [Units.pr, Units.w]

omit T in
variable {D} in
/-- Accumulated fluxes read the gradients of cells and of ghost cells of interface faces. -/
theorem fluxes_gradients (hok : D.G.Ok) (second : Bool) (u : ℕ → St) {g g' : ℕ → Gr} (hg : ∀ i, i < D.G.rows → g' i = g i) (uL uR ug r : ℕ → St) (i : ℕ) :
    D.fluxes second u g' uL uR ug r i = D.fluxes second u g uL uR ug r i := by
  unfold Disc.fluxes
  rw [assemble_eq, assemble_eq]
  congr 1
  refine Finset.sum_congr rfl fun k hk => ?_
  have hk : k < D.G.nface := Finset.mem_range.1 hk
  obtain ⟨k1, -, -, -, k5⟩ := hok.kind hk
  have hl : g' (D.G.face k).left = g (D.G.face k).left := hg _ (by unfold Geo.rows; omega)
  have hr : (if k < D.G.m.nbface then g (D.G.face k).left else g' (D.G.face k).right) = if k < D.G.m.nbface then g (D.G.face k).left else g (D.G.face k).right := by
    split_ifs with hb
    · rfl
    · exact hg _ (k5 (by omega))
  congr 1
  unfold Disc.faceFlux
  rw [hl, hr]

/-- C99, second-order residual with the unlimited reconstruction and any gradient scheme. What arrives from other ranks is in the other units too; previous contents
of the arrays do not matter. -/
theorem C99_second_order_partial (hok : D.G.Ok) (hio : T.OutflowOk D) (gs : GradScheme) {E E' : Disc.Env} (hx : ∀ k, k < D.G.nface → ¬ k < D.G.m.nbface → ¬ D.G.inner k → E'.exch k = T.st (E.exch k))
    (hgg : ∀ i, D.G.m.nelem ≤ i → i < D.G.rows → E'.gg i = fun d => T.pr (E.gg i d)) (u r : ℕ → St) :
    (D.residual2 gs .linear E u r = none ∧ (T.disc D).residual2 gs .linear E' (fun i => T.st (u i)) (fun i => T.fl (r i)) = none) ∨
    ∃ o o', D.residual2 gs .linear E u r = some o ∧ (T.disc D).residual2 gs .linear E' (fun i => T.st (u i)) (fun i => T.fl (r i)) = some o' ∧
      (∀ k, k < D.G.nface → o'.uL k = T.st (o.uL k) ∧ o'.uR k = T.st (o.uR k)) ∧
      ∀ i, i < D.G.m.nelem → o'.res i = T.fl (o.res i) ∧ (T.disc D).timestep o'.uL o'.uR i = D.timestep o.uL o.uR i / T.b := by
  by_cases hb : D.BcOk
  · refine Or.inr ?_
    have hb' := (disc_bcOk T D).2 hb
    set D' := T.disc D with hD'
    have hG : D'.G = D.G := rfl
    have hprim : ∀ w, D'.gas.primOfCons (T.st w) = T.pr (D.gas.primOfCons w) := fun w => T.prim_st D.gas w
    have hcons : ∀ w, D'.gas.consOfPrim (T.pr w) = T.st (D.gas.consOfPrim w) := fun w => T.cons_st D.gas w
    have hub : ∀ k, k < D.G.m.nbface → D'.bstate k (T.st (u (D.G.face k).left)) = T.st (D.bstate k (u (D.G.face k).left)) := fun k hk => bstate_st T D hio hk _
    have hg : ∀ old i, D'.gradients gs (fun i => D'.gas.primOfCons (T.st (u i))) (fun k => D'.gas.primOfCons (D'.bstate k (T.st (u (D.G.face k).left)))) (fun i d => T.pr (old i d)) i =
        fun d => T.pr (D.gradients gs (fun i => D.gas.primOfCons (u i)) (fun k => D.gas.primOfCons (D.bstate k (u (D.G.face k).left))) old i d) := fun old i => by
      have := C99_gradients D T.w gs (u := fun i => D.gas.primOfCons (u i)) (ug := fun k => D.gas.primOfCons (D.bstate k (u (D.G.face k).left)))
        (ug' := fun k => D'.gas.primOfCons (D'.bstate k (T.st (u (D.G.face k).left)))) (fun k hk => by rw [hub k hk, hprim, pr_w]) old i
      simp only [hprim, pr_w]
      exact this
    have hold : ∀ o o' i, i < D.G.m.nelem → ∀ x y, D'.gradients gs x y o i = D'.gradients gs x y o' i := fun o o' i hi x y => by
      unfold Disc.gradients; rw [if_pos (show i < D'.G.m.nelem from hi), if_pos (show i < D'.G.m.nelem from hi)]
    have hg1 : ∀ i, i < D.G.rows → D'.gradients gs (fun i => D'.gas.primOfCons (T.st (u i))) (fun k => D'.gas.primOfCons (D'.bstate k (T.st (u (D.G.face k).left)))) E'.gg i =
        fun d => T.pr (D.gradients gs (fun i => D.gas.primOfCons (u i)) (fun k => D.gas.primOfCons (D.bstate k (u (D.G.face k).left))) E.gg i d) := fun i hir => by
      rw [← hg]
      unfold Disc.gradients
      split_ifs with hi
      · rfl
      · exact hgg i (not_lt.1 hi) hir
    have hg0 : ∀ i, i < D.G.m.nelem → D'.gradients gs (fun i => D'.gas.primOfCons (T.st (u i))) (fun k => D'.gas.primOfCons (D'.bstate k (T.st (u (D.G.face k).left)))) E'.gold i =
        fun d => T.pr (D.gradients gs (fun i => D.gas.primOfCons (u i)) (fun k => D.gas.primOfCons (D.bstate k (u (D.G.face k).left))) E.gold i d) := fun i hi => by
      rw [← hg]; exact hold _ _ i hi _ _
    have hlin : ∀ (q : St) (g g' : Gr) (x y : V2), (g' = fun d => T.pr (g d)) → (fun v => linExt (D'.gas.primOfCons (T.st q) v) (fun d => g' d v) 1 x y) =
        T.pr (fun v => linExt (D.gas.primOfCons q v) (fun d => g d v) 1 x y) := fun q g g' x y e => by
      subst e
      funext v
      simp only [hprim, pr_w]
      unfold linExt
      ring
    obtain ⟨x, hx1, hx2⟩ := Disc.recon_linear hok (fun i => D.gas.primOfCons (u i)) (fun k => D.gas.primOfCons (D.bstate k (u (D.G.face k).left)))
      (D.gradients gs (fun i => D.gas.primOfCons (u i)) (fun k => D.gas.primOfCons (D.bstate k (u (D.G.face k).left))) E.gold)
      (fun x => if x.2 < D.G.m.nbface then (if x.1 then u (D.G.face x.2).left else D.gas.primOfCons (D.bstate x.2 (u (D.G.face x.2).left))) else E.old x)
    obtain ⟨x', hx1', hx2'⟩ := Disc.recon_linear (D := D') hok (fun i => D'.gas.primOfCons (T.st (u i))) (fun k => D'.gas.primOfCons (D'.bstate k (T.st (u (D'.G.face k).left))))
      (D'.gradients gs (fun i => D'.gas.primOfCons (T.st (u i))) (fun k => D'.gas.primOfCons (D'.bstate k (T.st (u (D'.G.face k).left)))) E'.gold)
      (fun x => if x.2 < D'.G.m.nbface then (if x.1 then T.st (u (D'.G.face x.2).left) else D'.gas.primOfCons (D'.bstate x.2 (T.st (u (D'.G.face x.2).left)))) else E'.old x)
    have hL : ∀ k, k < D.G.nface → D'.gas.consOfPrim (x' (true, k)) = T.st (D.gas.consOfPrim (x (true, k))) := fun k hk => by
      rw [(hx2 k hk).1, (hx2' k hk).1, ← hcons]
      congr 1
      exact hlin _ _ _ _ _ (hg0 _ (hok.kind hk).1)
    have hR : ∀ k, k < D.G.nface → (if k < D'.G.m.nbface then D'.bstate k (D'.gas.consOfPrim (x' (true, k))) else
          if D'.G.inner k then D'.gas.consOfPrim (x' (false, k)) else E'.exch k) =
        T.st (if k < D.G.m.nbface then D.bstate k (D.gas.consOfPrim (x (true, k))) else
          if D.G.inner k then D.gas.consOfPrim (x (false, k)) else E.exch k) := fun k hk => by
      rw [hG, hL k hk]
      by_cases hbk : k < D.G.m.nbface
      · rw [if_pos hbk, if_pos hbk]
        exact bstate_st T D hio hbk _
      · rw [if_neg hbk, if_neg hbk]
        by_cases hi : D.G.inner k
        · rw [if_pos hi, if_pos hi, (hx2 k hk).2 hi, (hx2' k hk).2 hi, ← hcons]
          congr 1
          obtain ⟨-, -, -, k4, -⟩ := hok.kind hk
          exact hlin _ _ _ _ _ (hg0 _ (k4.1 hi))
        · rw [if_neg hi, if_neg hi]
          exact hx k hk hbk hi
    refine ⟨_, _, by unfold Disc.residual2; rw [if_pos hb]; simp only; rw [hx1, Option.map_some],
      by unfold Disc.residual2; rw [if_pos hb']; simp only; rw [hx1', Option.map_some], fun k hk => ⟨hL k hk, hR k hk⟩, fun i hi => ⟨?_, ?_⟩⟩
    · dsimp only
      rw [← C99_fluxes T D true u _ hL hR hub r i]
      exact fluxes_gradients (D := D') hok true _ (fun i hi => hg1 i hi) _ _ _ _ _
    · exact C99_time_steps T D hok hL hR hi
  · exact Or.inl ⟨by unfold Disc.residual2; rw [if_neg hb], by unfold Disc.residual2; rw [if_neg (fun e => hb ((disc_bcOk T D).1 e))]⟩

/-- C99 fails for the MUSCL reconstruction: van Albada's limiter adds the number 1e-8 to squared differences of density, velocity and pressure. On every mesh, for
every interior face: densities 1 and 1.0001 and zero gradients give the left face density 1, in units with half the numbers more than half of it. -/
theorem C99_muscl_refuted (hok : D.G.Ok) {k : ℕ} (hk : k < D.G.nface) (hi : D.G.inner k) (ug ug' : ℕ → St) (a a' : Bool × ℕ → St) (ha : T.a = 1 / 2) :
    ∃ (u : ℕ → St) (x x' : Bool × ℕ → St), D.recon .muscl u ug 0 a = some x ∧ (T.disc D).recon .muscl (fun i => T.pr (u i)) ug' 0 a' = some x' ∧
      x (true, k) 0 = 1 ∧ T.a * x (true, k) 0 < x' (true, k) 0 := by
  obtain ⟨k1, k2, -, k4, -⟩ := hok.kind hk
  let u : ℕ → St := fun l => if l = (D.G.face k).right then ![1 + 1 / 10000, 0, 0, 1] else ![1, 0, 0, 1]
  have hui : u (D.G.face k).left 0 = 1 := by show (if _ then _ else _ : St) 0 = 1; rw [if_neg k2]; rfl
  have huj : u (D.G.face k).right 0 = 1 + 1 / 10000 := by show (if _ then _ else _ : St) 0 = _; rw [if_pos rfl]; rfl
  obtain ⟨x, hx1, hx2⟩ := Disc.recon_muscl hok u ug 0 a
  obtain ⟨x', hx1', hx2'⟩ := Disc.recon_muscl (D := T.disc D) hok (fun i => T.pr (u i)) ug' 0 a'
  have e1 := hx2 k hk hi.1 0
  have e2 := hx2' k hk hi.1 0
  have hG : (T.disc D).G = D.G := rfl
  rw [hG] at e2
  have q0 : ∀ w : St, T.pr w 0 = T.a * w 0 := fun w => rfl
  simp only [q0, hui, huj, ha] at e1 e2
  norm_num [vanAlbada, Geo.musclL, Geo.biasedDiff] at e1 e2
  refine ⟨u, x, x', hx1, hx1', e1, ?_⟩
  rw [e1, e2, ha]
  norm_num

end second
end FV

namespace Par
section run
variable (T : Units) (D : Disc) (hok : D.G.Ok) (hio : T.OutflowOk D)
include hok hio

/-- C99, one iteration of the explicit steady solver with any CFL number: residual norms are multiplied by the factor of the energy flux, states are the same in the
other units. -/
theorem C99_iteration (u : ℕ → St) (cfl : ℝ) :
    (single (T.disc D)).norm (fun i => T.st (u i)) = ((single D).norm u).map (fun r => T.a * T.b ^ 3 * r) ∧
      (single (T.disc D)).upd cfl (fun i => T.st (u i)) = fun i => T.st ((single D).upd cfl u i) := by
  have hb := T.hb.ne'
  have hz : (fun i => T.fl ((0 : ℕ → St) i)) = 0 := by funext i v; fin_cases v <;> simp
  have h1 := C99_first_order T D hio u 0
  rw [hz] at h1
  rcases h1 with ⟨e1, e2⟩ | ⟨o, o', e1, e2, e3, e4⟩
  · constructor
    · simp only [single, e1, e2, Option.bind_none, Option.map_none]
    · simp only [single, e1, e2]
  · constructor
    · simp only [single, e1, e2, Option.bind_some]
      have he : energy (T.disc D) o'.res = (T.a * T.b ^ 3) ^ 2 * energy D o.res := by
        unfold energy
        change ∑ l ∈ Finset.range D.G.m.nelem, o'.res l 3 * o'.res l 3 * D.G.ar l = _
        rw [Finset.mul_sum]
        refine Finset.sum_congr rfl fun l _ => ?_
        rw [e4 l, Units.fl_3]
        ring
      have hq : 0 < T.a * T.b ^ 3 := by have := T.ha; have := T.hb; positivity
      have hp : 0 < (T.a * T.b ^ 3) ^ 2 := by positivity
      unfold rootOf
      rw [he]
      by_cases hs : 0 ≤ energy D o.res
      · rw [if_pos hs, if_pos (mul_nonneg hp.le hs), Real.sqrt_mul hp.le, Real.sqrt_sq hq.le]; rfl
      · rw [if_neg hs, if_neg (fun hh => hs (by exact (mul_nonneg_iff_of_pos_left hp).1 hh))]; rfl
    · simp only [single, e1, e2]
      funext i
      unfold euler
      by_cases hi : i < D.G.m.nelem
      · have ht := C99_time_steps T D hok (fun k hk => (e3 k hk).1) (fun k hk => (e3 k hk).2) hi
        rw [if_pos hi, if_pos (show i < (T.disc D).G.m.nelem from hi), ht, e4 i]
        funext v
        rw [T.fl_eq]
        change T.st (u i) v + cfl * (D.timestep o.uL o.uR i / T.b) * 1 / D.G.ar i * (T.b * T.st (o.res i) v) = _
        rw [show cfl * (D.timestep o.uL o.uR i / T.b) * 1 / D.G.ar i * (T.b * T.st (o.res i) v) = cfl * D.timestep o.uL o.uR i * 1 / D.G.ar i * T.st (o.res i) v by field_simp]
        generalize cfl * D.timestep o.uL o.uR i * 1 / D.G.ar i = q
        fin_cases v <;> simp <;> ring
      · rw [if_neg hi, if_neg (show ¬ i < (T.disc D).G.m.nelem from hi)]

/-- C99, whole runs of the explicit steady solver: in other units it ends in the same way after the same number of iterations; at a normal end the states are the same
in the other units and the norms are multiplied by the factor of the energy flux. -/
theorem C99_run {w : ℕ → St} {c : Conf} {k : ℕ} {out : Ode.Out} (hrun : Solve forwardEuler (single D) c w k out) :
    Solve forwardEuler (single (T.disc D)) c (fun i => T.st (w i)) k out ∧
    (∀ k' out', Solve forwardEuler (single (T.disc D)) c (fun i => T.st (w i)) k' out' → k' = k ∧ out' = out) ∧
    ∀ m, 0 < k → Loop (Ode.cond c) (body forwardEuler (single D) c) (init forwardEuler c w) k (some m) →
      ∃ m', Loop (Ode.cond c) (body forwardEuler (single (T.disc D)) c) (init forwardEuler c fun i => T.st (w i)) k (some m') ∧
        (m'.u = fun i => T.st (m.u i)) ∧ m'.resi = T.a * T.b ^ 3 * m.resi ∧ m'.initres = T.a * T.b ^ 3 * m.initres ∧
          (T.a * T.b ^ 3 = 1 → m'.log = m.log) := by
  have hκ : 0 < T.a * T.b ^ 3 := by have := T.ha; have := T.hb; positivity
  have hsim : ∀ {o}, Loop (Ode.cond c) (body forwardEuler (single D) c) (init forwardEuler c w) k o →
      ∃ o', Loop (Ode.cond c) (body forwardEuler (single (T.disc D)) c) (init forwardEuler c fun i => T.st (w i)) k o' ∧ (o = none → o' = none) ∧
        ∀ t, o = some t → ∃ t', o' = some t' ∧ Scaled (T.a * T.b ^ 3) (fun u u' : ℕ → St => u' = fun i => T.st (u i)) t t' := fun hloop =>
    loop_scaled hκ (R := fun u u' : ℕ → St => u' = fun i => T.st (u i)) (fun u u' hR => by rw [hR]; exact (C99_iteration T D hok hio u 0).1)
      (fun a u u' hR => by rw [hR]; exact (C99_iteration T D hok hio u a).2) hloop ⟨rfl, rfl, fun _ => ⟨rfl, rfl⟩, fun h0 => absurd rfl h0, fun _ => ⟨rfl, rfl, rfl, rfl⟩⟩
  have hsol : Solve forwardEuler (single (T.disc D)) c (fun i => T.st (w i)) k out := by
    unfold Solve at hrun ⊢
    split_ifs at hrun ⊢ with hmx
    · exact hrun
    · obtain ⟨o, l1, l2⟩ := hrun
      obtain ⟨o', s1, s2, s3⟩ := hsim l1
      refine ⟨o', s1, ?_⟩
      cases o with
      | none => rw [s2 rfl]; exact l2
      | some t =>
        obtain ⟨t', rfl, hs⟩ := s3 t rfl
        rw [l2]
        simp only [forwardEuler, hs.step]
  refine ⟨hsol, fun k' out' h' => ((C56_terminates forwardEuler _ c _).2 k out hsol).2 k' out' h', fun m hk hm => ?_⟩
  obtain ⟨o', s1, -, s3⟩ := hsim hm
  obtain ⟨t', rfl, hs⟩ := s3 m rfl
  have hst : m.step ≠ 0 := by
    have key : ∀ {a : Mem (ℕ → St)} {n : ℕ} {o : Option (Mem (ℕ → St))}, Loop (Ode.cond c) (body forwardEuler (single D) c) a n o → ∀ b, o = some b → b.step = a.step + n := by
      intro a n o hl
      induction hl with
      | done _ => intro b hb; cases hb; rfl
      | @step a a1 n o _ h2 _ ih =>
        intro b hb
        have := ih b hb
        simp only [body] at h2
        cases hr : (single D).norm a.u with
        | none => rw [hr] at h2; cases h2
        | some r => rw [hr] at h2; cases h2; simp only at this; omega
      | throws _ _ => intro b hb; cases hb
    have := key hm m rfl
    simp only [init] at this
    omega
  exact ⟨t', s1, hs.u, (hs.resi hst).1, (hs.resi hst).2, fun h1 => (hs.same h1).2.2.2⟩

omit hio in
omit T in
/-- C99 fails for the CFL numbers: from every state whose first residual norm is not zero there are two units of velocity with which the CFL number reported in the second
iteration is the initial value for one and larger for the other. -/
theorem C99_cfl_refuted {w : ℕ → St} {c : Conf} (h0 : 0 < c.cflinit) (h1 : c.cflinit < c.cflfin) {r0 r1 : ℝ} (hr : 0 < r0)
    (hn : (single D).norm w = some r0) (hn' : (single D).norm ((single D).upd c.cflinit w) = some r1) :
    ∃ T T' : Units, T.a = 1 ∧ T'.a = 1 ∧ ∃ a, c.cflinit < a ∧
      LogEntry forwardEuler (single (T.disc D)) c (fun i => T.st (w i)) 1 c.cflinit c.cflinit ∧
      LogEntry forwardEuler (single (T'.disc D)) c (fun i => T'.st (w i)) 1 a c.cflinit := by
  have key : ∀ T : Units, T.OutflowOk D → ∀ a b, LogEntry forwardEuler (single (T.disc D)) c (fun i => T.st (w i)) 1 a b ↔
      a = (if T.a * T.b ^ 3 * r0 < 1 then min c.cflfin (c.cflinit * (1 / (T.a * T.b ^ 3 * r0)) ^ (0.3 : ℝ)) else c.cflinit) ∧ b = c.cflinit := fun T hio a b => by
    have hκ : 0 < T.a * T.b ^ 3 := by have := T.ha; have := T.hb; positivity
    have i1 := C99_iteration T D hok hio w c.cflinit
    have i2 := C99_iteration T D hok hio ((single D).upd c.cflinit w) c.cflinit
    exact C94_second_cfl (.inl rfl) h0 h1 (mul_pos hκ hr) (by rw [i1.1, hn]; rfl) (r1 := T.a * T.b ^ 3 * r1) (by rw [i1.2, i2.1, hn']; rfl) a b
  -- a factor `q` with `q³ r0 = 1`
  obtain ⟨q, hq, hqr⟩ : ∃ q : ℝ, 0 < q ∧ q ^ 3 * r0 = 1 := by
    refine ⟨(1 / r0) ^ (1 / 3 : ℝ), by positivity, ?_⟩
    rw [← Real.rpow_natCast, ← Real.rpow_mul (by positivity)]
    norm_num
    exact inv_mul_cancel₀ hr.ne'
  refine ⟨⟨1, q, one_pos, hq⟩, ⟨1, q / 2, one_pos, by positivity⟩, rfl, rfl, min c.cflfin (c.cflinit * 8 ^ (0.3 : ℝ)), ?_, ?_, ?_⟩
  · refine lt_min h1 ?_
    have : (1 : ℝ) < 8 ^ (0.3 : ℝ) := Real.one_lt_rpow (by norm_num) (by norm_num)
    nlinarith
  · rw [key _ (fun _ _ _ _ => rfl)]
    simp only [one_mul, hqr, lt_irrefl, if_false, and_self]
  · rw [key _ (fun _ _ _ _ => rfl)]
    have e : (q / 2) ^ 3 * r0 = 1 / 8 := by rw [div_pow, div_mul_eq_mul_div, hqr]; norm_num
    simp only [one_mul, e]
    norm_num

end run
end Par

/-! ### Two squares in other units -/

/-- Density in grams instead of kilograms (say) and velocities in another unit. -/
noncomputable def units23 : Units := ⟨2, 3, by norm_num, by norm_num⟩

/-- Hypotheses of the C99 theorems are met: two squares, cold and hot gas, extrapolation on the boundary; viscous gas between isothermal walls. -/
example (w r : ℕ → St) : ∃ s D, topological pair = .ok s ∧ D.G.Ok ∧ units23.OutflowOk D ∧ D.viscous = true ∧
    (∃ o o', D.residual1 w r = some o ∧ (units23.disc D).residual1 (fun i => units23.st (w i)) (fun i => units23.fl (r i)) = some o' ∧ o'.res 0 = units23.fl (o.res 0)) ∧
    (∃ o o', D.residual2 .wls .linear ⟨0, 0, 0, 0⟩ w r = some o ∧
      (units23.disc D).residual2 .wls .linear ⟨0, 0, 0, 0⟩ (fun i => units23.st (w i)) (fun i => units23.fl (r i)) = some o' ∧ o'.res 0 = units23.fl (o.res 0)) := by
  obtain ⟨s, hs, hf⟩ := pair_topological
  let P : Settings := ⟨air, .roe, true, false, fun _ => some (.isothermal 1 2)⟩
  have hok : (P.disc pair s 0).G.Ok := ⟨pair_conforming, pair_nozero, hs⟩
  have hb : (P.disc pair s 0).BcOk := fun k _ => rfl
  have hio : units23.OutflowOk (P.disc pair s 0) := fun k _ ui h => by cases h
  refine ⟨s, P.disc pair s 0, hs, hok, hio, rfl, ?_, ?_⟩
  · rcases C99_first_order units23 (P.disc pair s 0) hio w r with ⟨e1, -⟩ | ⟨o, o', e1, e2, -, e4⟩
    · exact absurd e1 (by unfold Disc.residual1; rw [if_pos hb]; simp)
    · exact ⟨o, o', e1, e2, e4 0⟩
  · rcases C99_second_order_partial units23 (P.disc pair s 0) hok hio .wls (E := ⟨0, 0, 0, 0⟩) (E' := ⟨0, 0, 0, 0⟩)
      (fun k _ _ _ => by funext v; fin_cases v <;> simp) (fun i _ _ => by funext d v; fin_cases v <;> simp [Units.pr]) w r with ⟨e1, -⟩ | ⟨o, o', e1, e2, -, e4⟩
    · obtain ⟨o, ho⟩ := residual2_defined hok (fun k _ => rfl) (gs := .wls) (R := .linear) (show Disc.ReconOk .linear from trivial)
        (fun h => by rcases h with h | ⟨K, h⟩ <;> cases h) ⟨0, 0, 0, 0⟩ w r
      rw [ho] at e1; cases e1
    · exact ⟨o, o', e1, e2, (e4 0 (by show 0 < 2; omega)).1⟩

/-- The MUSCL refutation applies to the interior face of the two squares. -/
example : ∃ s, topological pair = .ok s ∧ ∃ (u : ℕ → St) (x x' : Bool × ℕ → St), ((airOut .roe).disc pair s 0).recon .muscl u 0 0 0 = some x ∧
    ((⟨1 / 2, 1, by norm_num, by norm_num⟩ : Units).disc ((airOut .roe).disc pair s 0)).recon .muscl
      (fun i => (⟨1 / 2, 1, by norm_num, by norm_num⟩ : Units).pr (u i)) 0 0 0 = some x' ∧ x (true, 6) 0 = 1 ∧ 1 / 2 * x (true, 6) 0 < x' (true, 6) 0 := by
  obtain ⟨s, hs, hf⟩ := pair_topological
  have hok : ((airOut .roe).disc pair s 0).G.Ok := ⟨pair_conforming, pair_nozero, hs⟩
  have f6 : ((airOut .roe).disc pair s 0).G.face 6 = ⟨0, 1, 1, 4⟩ := by show faceAt s.faces 6 = _; rw [hf]; rfl
  have h6 : 6 < ((airOut .roe).disc pair s 0).G.nface := by show 6 < s.faces.length; rw [hf]; decide
  obtain ⟨-, -, -, k4, -⟩ := hok.kind h6
  exact ⟨s, hs, C99_muscl_refuted ⟨1 / 2, 1, by norm_num, by norm_num⟩ _ hok h6 (k4.2 (by rw [f6]; show 1 < 2; omega)) 0 0 0 0 rfl⟩

/-- Hypotheses of `C99_run` and `C99_cfl_refuted` are met by two squares with cold and hot gas. -/
example : ∃ s, topological pair = .ok s ∧ (∃ k out, Solve forwardEuler (single ((airOut .llf).disc pair s 0)) ⟨1 / 2, 10, 1, 5⟩ (two cold hot) k out ∧
      Solve forwardEuler (single (units23.disc ((airOut .llf).disc pair s 0))) ⟨1 / 2, 10, 1, 5⟩ (fun i => units23.st (two cold hot i)) k out) ∧
    ∃ T T' : Units, ∃ a, 1 < a ∧
    LogEntry forwardEuler (single (T.disc ((airOut .llf).disc pair s 0))) ⟨1 / 2, 10, 1, 5⟩ (fun i => T.st (two cold hot i)) 1 1 1 ∧
    LogEntry forwardEuler (single (T'.disc ((airOut .llf).disc pair s 0))) ⟨1 / 2, 10, 1, 5⟩ (fun i => T'.st (two cold hot i)) 1 a 1 := by
  obtain ⟨s, hs, hf⟩ := pair_topological
  have hok : ((airOut .llf).disc pair s 0).G.Ok := ⟨pair_conforming, pair_nozero, hs⟩
  obtain ⟨r0, hr, hn⟩ := pair_norm_ne hs hf
  obtain ⟨r1, hn'⟩ := pair_norm s .llf ((single ((airOut .llf).disc pair s 0)).upd 1 (two cold hot))
  have hio : ∀ T : Units, T.OutflowOk ((airOut .llf).disc pair s 0) := fun T k _ ui h => by cases h
  obtain ⟨T, T', -, -, a, h1, h2, h3⟩ := C99_cfl_refuted ((airOut .llf).disc pair s 0) hok (c := ⟨1 / 2, 10, 1, 5⟩) (by norm_num) (by norm_num) hr hn hn'
  obtain ⟨⟨k, out, hk⟩, -⟩ := C56_terminates forwardEuler (single ((airOut .llf).disc pair s 0)) ⟨1 / 2, 10, 1, 5⟩ (two cold hot)
  exact ⟨s, hs, ⟨k, out, hk, (C99_run units23 _ hok (hio _) hk).1⟩, T, T', a, h1, h2, h3⟩

end FVENS
