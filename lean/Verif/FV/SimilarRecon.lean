import Verif.FV.SimilarGrad

/-!
# Reconstruction and second-order residual on a moved, turned and scaled mesh (C94)
-/

namespace FVENS
namespace FV

open Msh Finset Flux

namespace Disc
variable {D : Disc}

/-- The face states of the unlimited reconstruction. -/
noncomputable def linL (D : Disc) (u : ℕ → St) (g : ℕ → Gr) (k : ℕ) : St := fun v =>
  linExt (u (D.G.face k).left v) (fun d => g (D.G.face k).left d v) 1 (D.G.mid k) (D.G.rc (D.G.face k).left)
noncomputable def linR (D : Disc) (u : ℕ → St) (g : ℕ → Gr) (k : ℕ) : St := fun v =>
  linExt (u (D.G.face k).right v) (fun d => g (D.G.face k).right d v) 1 (D.G.mid k) (D.G.rc (D.G.face k).right)

/-- The unlimited reconstruction is always defined. -/
theorem recon_linear (hok : D.G.Ok) (u ug : ℕ → St) (g : ℕ → Gr) (a : Bool × ℕ → St) : ∃ x, D.recon .linear u ug g a = some x ∧
    ∀ k, k < D.G.nface → x (true, k) = D.linL u g k ∧ (D.G.inner k → x (false, k) = D.linR u g k) := by
  have hf : ∀ v : Fin 4, ∀ k, k < D.G.nface → D.G.linearFace (fun i => u i v) (fun i d => g i d v) D.G.mid k =
      some (D.linL u g k v, if D.G.inner k then some (D.linR u g k v) else none) := fun v k hk => by
    obtain ⟨k1, -, -, k4, -⟩ := hok.kind hk
    have hl : (D.G.face k).left < D.G.rows := by unfold Geo.rows; omega
    unfold Geo.linearFace rd
    rw [if_pos hl, if_pos hl]
    simp only [Option.bind_some]
    by_cases hi : D.G.inner k
    · have hr : (D.G.face k).right < D.G.rows := by have := k4.1 hi; unfold Geo.rows; omega
      rw [if_pos hi, if_pos hi, if_pos hr, if_pos hr]; rfl
    · rw [if_neg hi, if_neg hi]; rfl
  have hc : ∀ v : Fin 4, ∃ y, D.recon1 .linear (fun i => u i v) (fun k => ug k v) (fun i d => g i d v) (fun x => a x v) = some y ∧
      ∀ k, k < D.G.nface → y (true, k) = D.linL u g k v ∧ (D.G.inner k → y (false, k) = D.linR u g k v) := fun v => by
    unfold recon1 faceArr
    simp only
    rw [if_pos fun k hk => by rw [hf v k hk]; rfl]
    refine ⟨_, rfl, fun k hk => ?_⟩
    simp only [if_pos hk, hf v k hk]
    refine ⟨rfl, fun hi => ?_⟩
    simp [hi]
  choose y hy1 hy2 using hc
  refine ⟨fun x v => y v x, ?_, fun k hk => ⟨funext fun v => (hy2 v k hk).1, fun hi => funext fun v => (hy2 v k hk).2 hi⟩⟩
  unfold recon
  dsimp only
  rw [if_pos fun v => by rw [hy1 v]; rfl]
  simp only [hy1, Option.getD_some]

/-- The MUSCL reconstruction is always defined; left states of interior faces. -/
theorem recon_muscl (hok : D.G.Ok) (u ug : ℕ → St) (g : ℕ → Gr) (a : Bool × ℕ → St) : ∃ x, D.recon .muscl u ug g a = some x ∧
    ∀ k, k < D.G.nface → D.G.m.nbface ≤ k → ∀ v, x (true, k) v =
      Geo.musclL (u (D.G.face k).left v) (u (D.G.face k).right v)
        (Geo.biasedDiff (D.G.rc (D.G.face k).left) (D.G.rc (D.G.face k).right) (u (D.G.face k).left v) (u (D.G.face k).right v) (fun d => g (D.G.face k).left d v))
        (vanAlbada (Geo.biasedDiff (D.G.rc (D.G.face k).left) (D.G.rc (D.G.face k).right) (u (D.G.face k).left v) (u (D.G.face k).right v) (fun d => g (D.G.face k).left d v))
          (u (D.G.face k).right v - u (D.G.face k).left v)) := by
  have hf : ∀ v : Fin 4, ∀ k, k < D.G.nface → ∃ b, D.G.musclFace (fun i => u i v) (fun k => ug k v) (fun i d => g i d v) k = some b ∧
      (D.G.m.nbface ≤ k → b.1 = Geo.musclL (u (D.G.face k).left v) (u (D.G.face k).right v)
        (Geo.biasedDiff (D.G.rc (D.G.face k).left) (D.G.rc (D.G.face k).right) (u (D.G.face k).left v) (u (D.G.face k).right v) (fun d => g (D.G.face k).left d v))
        (vanAlbada (Geo.biasedDiff (D.G.rc (D.G.face k).left) (D.G.rc (D.G.face k).right) (u (D.G.face k).left v) (u (D.G.face k).right v) (fun d => g (D.G.face k).left d v))
          (u (D.G.face k).right v - u (D.G.face k).left v))) := fun v k hk => by
    obtain ⟨k1, -, -, -, k5⟩ := hok.kind hk
    have hl : (D.G.face k).left < D.G.rows := by unfold Geo.rows; omega
    unfold Geo.musclFace rd
    rw [if_pos hl, if_pos hl]
    simp only [Option.bind_some]
    by_cases hb : k < D.G.m.nbface
    · rw [if_pos hb]
      exact ⟨_, rfl, fun h => absurd hb (not_lt.2 h)⟩
    · have hr : (D.G.face k).right < D.G.rows := k5 (by omega)
      rw [if_neg hb, if_pos hr, if_pos hr]
      exact ⟨_, rfl, fun _ => rfl⟩
  choose! b hb1 hb2 using hf
  have hc : ∀ v : Fin 4, ∃ y, D.recon1 .muscl (fun i => u i v) (fun k => ug k v) (fun i d => g i d v) (fun x => a x v) = some y ∧
      ∀ k, k < D.G.nface → y (true, k) = (b v k).1 := fun v => by
    unfold recon1 faceArr
    simp only
    rw [if_pos fun k hk => by rw [hb1 v k hk]; rfl]
    refine ⟨_, rfl, fun k hk => ?_⟩
    simp only [if_pos hk, hb1 v k hk]
    rfl
  choose y hy1 hy2 using hc
  refine ⟨fun x v => y v x, ?_, fun k hk hn v => (hy2 v k hk).trans (hb2 v k hk hn)⟩
  unfold recon
  dsimp only
  rw [if_pos fun v => by rw [hy1 v]; rfl]
  simp only [hy1, Option.getD_some]

end Disc

namespace Moved
variable {T : Similarity} {D D' : Disc} (h : Moved T D D') (hok : D.G.Ok)
include h hok

omit h hok in
theorem linExt_pt (u : St) (g : Gr) (x y : V2) (v : Fin 4) :
    linExt (T.st u v) (fun d => T.gr g d v) 1 (T.pt x) (T.pt y) = T.st (fun v => linExt (u v) (fun d => g d v) 1 x y) v := by
  have e := gr_diff T g x y v
  unfold linExt
  rw [one_mul, one_mul, add_assoc, e]
  fin_cases v <;> simp [Similarity.st, rotS] <;> ring

theorem linL {u u' : ℕ → St} {g g' : ℕ → Gr} (hu : ∀ i, i < D.G.rows → u' i = T.st (u i)) (hg : ∀ i, i < D.G.m.nelem → g' i = T.gr (g i)) {k : ℕ}
    (hk : k < D.G.nface) : D'.linL u' g' k = T.st (D.linL u g k) := by
  obtain ⟨k1, -⟩ := hok.kind hk
  have hl : (D.G.face k).left < D.G.rows := by unfold Geo.rows; omega
  funext v
  unfold Disc.linL
  rw [h.face, h.mid, h.rc _ hl, hu _ hl, hg _ k1]
  exact linExt_pt _ _ _ _ v

theorem linR {u u' : ℕ → St} {g g' : ℕ → Gr} (hu : ∀ i, i < D.G.rows → u' i = T.st (u i)) (hg : ∀ i, i < D.G.m.nelem → g' i = T.gr (g i)) {k : ℕ}
    (hk : k < D.G.nface) (hi : D.G.inner k) : D'.linR u' g' k = T.st (D.linR u g k) := by
  obtain ⟨-, -, -, k4, -⟩ := hok.kind hk
  have hl : (D.G.face k).right < D.G.rows := by have := k4.1 hi; unfold Geo.rows; omega
  funext v
  unfold Disc.linR
  rw [h.face, h.mid, h.rc _ hl, hu _ hl, hg _ (k4.1 hi)]
  exact linExt_pt _ _ _ _ v

/-- C94, second-order residual with the unlimited reconstruction and any gradient scheme: turned and scaled as the first-order one. What arrives from other
ranks is turned too; previous contents of the arrays do not matter. -/
theorem C94_second_order_partial (gs : GradScheme) {E E' : Disc.Env} (hx : ∀ k, k < D.G.nface → ¬ k < D.G.m.nbface → ¬ D.G.inner k → E'.exch k = T.st (E.exch k))
    (hgg : ∀ i, D.G.m.nelem ≤ i → i < D.G.rows → E'.gg i = T.gr (E.gg i)) {u u' : ℕ → St} (hu : ∀ i, i < D.G.rows → u' i = T.st (u i)) {r r' : ℕ → St}
    (hr : ∀ i, i < D.G.m.nelem → r' i = Similarity.scl T (r i)) :
    (D.residual2 gs .linear E u r = none ∧ D'.residual2 gs .linear E' u' r' = none) ∨
    ∃ o o', D.residual2 gs .linear E u r = some o ∧ D'.residual2 gs .linear E' u' r' = some o' ∧
      (∀ k, k < D.G.nface → o'.uL k = T.st (o.uL k) ∧ o'.uR k = T.st (o.uR k)) ∧
      ∀ i, i < D.G.m.nelem → o'.res i = Similarity.scl T (o.res i) ∧ D'.timestep o'.uL o'.uR i = T.L * D.timestep o.uL o.uR i := by
  by_cases hb : D.BcOk
  · refine Or.inr ?_
    have hb' := h.bcOk.2 hb
    have hnb : D.G.m.nbface ≤ D.G.nface := by
      have := (C27_ranges hok.conf.lin hok.conf.bfOk hok.topo).1
      unfold Geo.nface; omega
    have hprim : ∀ w, D'.gas.primOfCons (T.st w) = T.st (D.gas.primOfCons w) := fun w => by rw [h.gas]; exact prim_rot T D.gas w
    have hcons : ∀ w, D'.gas.consOfPrim (T.st w) = T.st (D.gas.consOfPrim w) := fun w => by rw [h.gas]; exact cons_rot T D.gas w
    have hub : ∀ k, k < D.G.m.nbface → D'.bstate k (u' (D'.G.face k).left) = T.st (D.bstate k (u (D.G.face k).left)) := fun k hk => by
      rw [h.face, left_st hok hu (lt_of_lt_of_le hk hnb), h.bstate]
    have hugp : ∀ k, k < D.G.m.nbface → D'.gas.primOfCons (D'.bstate k (u' (D'.G.face k).left)) = T.st (D.gas.primOfCons (D.bstate k (u (D.G.face k).left))) := fun k hk => by
      rw [hub k hk, hprim]
    have hup : ∀ i, i < D.G.rows → D'.gas.primOfCons (u' i) = T.st (D.gas.primOfCons (u i)) := fun i hi => by rw [hu i hi, hprim]
    have hg1 : ∀ i, i < D.G.rows → D'.gradients gs (fun i => D'.gas.primOfCons (u' i)) (fun k => D'.gas.primOfCons (D'.bstate k (u' (D'.G.face k).left))) E'.gg i =
        T.gr (D.gradients gs (fun i => D.gas.primOfCons (u i)) (fun k => D.gas.primOfCons (D.bstate k (u (D.G.face k).left))) E.gg i) := fun i hi =>
      h.C94_gradients hok hup hugp gs hgg hi
    have hg0 : ∀ i, i < D.G.m.nelem → D'.gradients gs (fun i => D'.gas.primOfCons (u' i)) (fun k => D'.gas.primOfCons (D'.bstate k (u' (D'.G.face k).left))) E'.gold i =
        T.gr (D.gradients gs (fun i => D.gas.primOfCons (u i)) (fun k => D.gas.primOfCons (D.bstate k (u (D.G.face k).left))) E.gold i) := fun i hi => by
      have := hg1 i (by unfold Geo.rows; omega)
      unfold Disc.gradients at this ⊢
      rw [if_pos hi, if_pos (by rw [h.nelem]; exact hi)] at this ⊢
      exact this
    obtain ⟨x, hx1, hx2⟩ := Disc.recon_linear hok (fun i => D.gas.primOfCons (u i)) (fun k => D.gas.primOfCons (D.bstate k (u (D.G.face k).left)))
      (D.gradients gs (fun i => D.gas.primOfCons (u i)) (fun k => D.gas.primOfCons (D.bstate k (u (D.G.face k).left))) E.gold)
      (fun x => if x.2 < D.G.m.nbface then (if x.1 then u (D.G.face x.2).left else D.gas.primOfCons (D.bstate x.2 (u (D.G.face x.2).left))) else E.old x)
    obtain ⟨x', hx1', hx2'⟩ := Disc.recon_linear (h.ok hok) (fun i => D'.gas.primOfCons (u' i)) (fun k => D'.gas.primOfCons (D'.bstate k (u' (D'.G.face k).left)))
      (D'.gradients gs (fun i => D'.gas.primOfCons (u' i)) (fun k => D'.gas.primOfCons (D'.bstate k (u' (D'.G.face k).left))) E'.gold)
      (fun x => if x.2 < D'.G.m.nbface then (if x.1 then u' (D'.G.face x.2).left else D'.gas.primOfCons (D'.bstate x.2 (u' (D'.G.face x.2).left))) else E'.old x)
    have hL : ∀ k, k < D.G.nface → D'.gas.consOfPrim (x' (true, k)) = T.st (D.gas.consOfPrim (x (true, k))) := fun k hk => by
      rw [(hx2 k hk).1, (hx2' k (by rw [h.nface]; exact hk)).1, h.linL hok hup hg0 hk, hcons]
    have hR : ∀ k, k < D.G.nface → (if k < D'.G.m.nbface then D'.bstate k (D'.gas.consOfPrim (x' (true, k))) else
          if D'.G.inner k then D'.gas.consOfPrim (x' (false, k)) else E'.exch k) =
        T.st (if k < D.G.m.nbface then D.bstate k (D.gas.consOfPrim (x (true, k))) else
          if D.G.inner k then D.gas.consOfPrim (x (false, k)) else E.exch k) := fun k hk => by
      rw [h.nbface, hL k hk, h.bstate]
      by_cases hbk : k < D.G.m.nbface
      · rw [if_pos hbk, if_pos hbk]
      · rw [if_neg hbk, if_neg hbk]
        by_cases hi : D.G.inner k
        · rw [if_pos hi, if_pos ((h.inner k).2 hi), (hx2 k hk).2 hi, (hx2' k (by rw [h.nface]; exact hk)).2 ((h.inner k).2 hi), h.linR hok hup hg0 hk hi, hcons]
        · rw [if_neg hi, if_neg (fun e => hi ((h.inner k).1 e))]
          exact hx k hk hbk hi
    refine ⟨_, _, by unfold Disc.residual2; rw [if_pos hb]; simp only; rw [hx1, Option.map_some],
      by unfold Disc.residual2; rw [if_pos hb']; simp only; rw [hx1', Option.map_some], fun k hk => ⟨hL k hk, hR k hk⟩, fun i hi => ⟨?_, ?_⟩⟩
    · exact h.C94_fluxes hok true hu hg1 hub hL hR (hr i hi)
    · exact h.C94_time_steps hok hL hR hi
  · exact Or.inl ⟨by unfold Disc.residual2; rw [if_neg hb], by unfold Disc.residual2; rw [if_neg (fun e => hb (h.bcOk.1 e))]⟩

omit h hok in
theorem biased_pt (ul ur : St) (g : Gr) (x y : V2) (v : Fin 4) :
    Geo.biasedDiff (T.pt x) (T.pt y) (T.st ul v) (T.st ur v) (fun d => T.gr g d v) =
      T.st (fun v => Geo.biasedDiff x y (ul v) (ur v) (fun d => g d v)) v := by
  have e := gr_diff T g y x v
  unfold Geo.biasedDiff
  rw [zero_add, e]
  fin_cases v <;> simp [Similarity.st, rotS] <;> ring

/-- C94 fails for the MUSCL reconstruction, which limits the two velocity components separately: on every mesh and every interior face with distinct centres there are
cell values and gradients whose face state is not turned along with the mesh (here by the angle with cosine 3/5 and sine 4/5). -/
theorem C94_muscl_refuted (hc : T.c = 3 / 5) (hs : T.s = 4 / 5) {k : ℕ} (hk : k < D.G.nface) (hi : D.G.inner k) (hd : D.G.rc (D.G.face k).left ≠ D.G.rc (D.G.face k).right)
    (ug ug' : ℕ → St) (a a' : Bool × ℕ → St) :
    ∃ (u : ℕ → St) (g : ℕ → Gr) (x x' : Bool × ℕ → St), D.recon .muscl u ug g a = some x ∧
      D'.recon .muscl (fun i => T.st (u i)) ug' (fun i => T.gr (g i)) a' = some x' ∧ x' (true, k) ≠ T.st (x (true, k)) := by
  set i := (D.G.face k).left with hil
  set j := (D.G.face k).right with hjr
  obtain ⟨k1, k2, -, k4, -⟩ := hok.kind hk
  have hij : i ≠ j := k2
  set e : V2 := fun d => D.G.rc j d - D.G.rc i d with he
  have hq : e 0 * e 0 + e 1 * e 1 ≠ 0 := fun h0 => by
    have h1 : e 0 = 0 := by nlinarith [mul_self_nonneg (e 0), mul_self_nonneg (e 1)]
    have h2 : e 1 = 0 := by nlinarith [mul_self_nonneg (e 0), mul_self_nonneg (e 1)]
    refine hd (funext fun d => ?_)
    have h1 : D.G.rc j 0 - D.G.rc i 0 = 0 := h1
    have h2 : D.G.rc j 1 - D.G.rc i 1 = 0 := h2
    fin_cases d
    · show D.G.rc i 0 = D.G.rc j 0; linarith
    · show D.G.rc i 1 = D.G.rc j 1; linarith
  -- velocity (0,0) on the left, (1,1) on the right; slope 1 of the first component along the line of centres, 0 of the second
  let u : ℕ → St := fun l => if l = j then ![1, 1, 1, 1] else ![1, 0, 0, 1]
  let g : ℕ → Gr := fun _ d => ![0, e d / (e 0 * e 0 + e 1 * e 1), 0, 0]
  have hui : u i = ![1, 0, 0, 1] := if_neg hij
  have huj : u j = ![1, 1, 1, 1] := if_pos rfl
  obtain ⟨x, hx1, hx2⟩ := Disc.recon_muscl hok u ug g a
  obtain ⟨x', hx1', hx2'⟩ := Disc.recon_muscl (h.ok hok) (fun i => T.st (u i)) ug' (fun i => T.gr (g i)) a'
  refine ⟨u, g, x, x', hx1, hx1', fun heq => ?_⟩
  have hb1 : (fun v => Geo.biasedDiff (D.G.rc i) (D.G.rc j) (u i v) (u j v) (fun d => g i d v)) = ![0, 1, -1, 0] := by
    have h1 : Geo.biasedDiff (D.G.rc i) (D.G.rc j) 0 1 (fun d => e d / (e 0 * e 0 + e 1 * e 1)) = 1 := by
      unfold Geo.biasedDiff
      change 2 * (0 + e 0 / _ * e 0 + e 1 / _ * e 1) - (1 - 0) = 1
      have : e 0 / (e 0 * e 0 + e 1 * e 1) * e 0 + e 1 / (e 0 * e 0 + e 1 * e 1) * e 1 = 1 := by
        rw [div_mul_eq_mul_div, div_mul_eq_mul_div, ← add_div, div_self hq]
      linarith
    rw [hui, huj]
    funext v
    fin_cases v
    · simp [Geo.biasedDiff, g]
    · exact h1
    · simp [Geo.biasedDiff, g]
    · simp [Geo.biasedDiff, g]
  have hli : i < D.G.rows := by unfold Geo.rows; omega
  have hlj : j < D.G.rows := by have := k4.1 hi; unfold Geo.rows; omega
  have e1 := hx2' k (by rw [h.nface]; exact hk) (by rw [h.nbface]; exact hi.1) 1
  rw [h.face, h.rc i hli, h.rc j hlj, biased_pt, hb1, hui, huj] at e1
  have e2 := hx2 k hk hi.1 1
  have e3 := hx2 k hk hi.1 2
  have b1 := congrFun hb1 1
  have b2 := congrFun hb1 2
  beta_reduce at b1 b2
  rw [b1, hui, huj] at e2
  rw [b2, hui, huj] at e3
  have e4 := congrFun heq 1
  rw [e1] at e4
  have q1 : ∀ a b c d : ℝ, (![a, b, c, d] : St) 1 = b := fun _ _ _ _ => rfl
  have q2 : ∀ a b c d : ℝ, (![a, b, c, d] : St) 2 = c := fun _ _ _ _ => rfl
  simp only [Similarity.st, rotS_1, e2, e3, hc, hs, q1, q2] at e4
  norm_num [vanAlbada, Geo.musclL] at e4

end Moved
end FV
end FVENS
