import Verif.Out.Files
import Verif.FV.ReflectEx
import Verif.Par.Positive

/-!
# Forces on mirror images (C112)

Mirroring the mesh, the state and the free stream changes the sign of the lift coefficient and keeps both drag coefficients. So a symmetric body in a stream along its axis has exactly no lift,
after every iteration of the explicit solver.
-/

namespace FVENS
namespace Out
open Msh FV Flux Par Ode
open Finset (range)

/-! ### Specification -/

/-- Reflected gradient: directions and states are reflected. -/
def grRef (M : Reflection) (g : Gr) : Gr := fun d => M.st fun v => M.dir (fun e => g e v) d

/-- The boundary faces correspond one to one, with their markers. -/
structure WallsMatch (m m' : Mesh) (τ : ℕ → ℕ) : Prop where
  count : m'.nbface = m.nbface
  inj : ∀ k k', k < m'.nbface → k' < m'.nbface → τ k = τ k' → k = k'
  tag : ∀ k, k < m'.nbface → m'.btag k 0 = m.btag (τ k) 0

/-- The state is its own mirror image. -/
def Symmetric (M : Reflection) (D : Disc) (ρ : ℕ → ℕ) (u : ℕ → St) : Prop := ∀ i, i < D.G.m.nelem → u i = M.st (u (ρ i))

/-! ### Sums over a wall -/

theorem sum_wall {m : Mesh} {s : FState} (hlen : m.nbface ≤ s.faces.length) (u : ℕ → St) (g : ℕ → Gr) (mk : ℤ) (f : WallFace → ℝ) :
    ((wall mk [wallFaces m s u g]).map f).sum = ∑ k ∈ range m.nbface, if (m.btag k 0 : ℤ) = mk then f (wallFace m u g k (faceAt s.faces k)) else 0 := by
  have e1 : ∀ n, n ≤ s.faces.length → ((List.range n).filterMap fun k => (s.faces[k]?).map (wallFace m u g k)) = (List.range n).map fun k => wallFace m u g k (faceAt s.faces k) := by
    intro n hn
    induction n with
    | zero => rfl
    | succ n ih =>
      rw [List.range_succ, List.filterMap_append, List.map_append, ih (by omega)]
      congr 1
      have hk : n < s.faces.length := by omega
      simp [faceAt, List.getElem?_eq_getElem hk]
  have e2 : ∀ n, (((List.map (fun k => wallFace m u g k (faceAt s.faces k)) (List.range n)).filter fun F => F.tag = mk).map f).sum =
      ∑ k ∈ range n, if (m.btag k 0 : ℤ) = mk then f (wallFace m u g k (faceAt s.faces k)) else 0 := by
    intro n
    induction n with
    | zero => simp
    | succ n ih =>
      rw [List.range_succ, List.map_append, List.filter_append, List.map_append, List.sum_append, ih, Finset.sum_range_succ]
      congr 1
      by_cases h : (m.btag n 0 : ℤ) = mk
      · simp [wallFace, h]
      · simp [wallFace, h]
  unfold wall wallFaces
  rw [e1 _ hlen]
  simpa using e2 m.nbface

section
variable {M : Reflection} {D D' : Disc} {ρ τ : ℕ → ℕ} {π : ℕ → ℕ → ℕ}

/-- A boundary face of the mirror image. -/
theorem mirrored_face (h : D.G.Ok) (h' : D'.G.Ok) (hm : Disc.Mirrored M D D' ρ τ π) {k : ℕ} (hk : k < D'.G.m.nbface) :
    τ k < D.G.m.nbface ∧ (D'.G.face k).left < D'.G.m.nelem ∧ (D.G.face (τ k)).left = ρ (D'.G.face k).left ∧ D'.G.nrm k = M.dir (D.G.nrm (τ k)) ∧ D'.G.len k = D.G.len (τ k) := by
  obtain ⟨c, f, hc, hf, hx⟩ := Disc.bnd_across h'.conf hk
  have hy := hm.bnd c hc f hf k hx
  have hn := hm.nnode c hc
  have hf' : π c f < D.G.m.nnode (ρ c) := by rw [← hn]; exact hm.side c hc f hf
  obtain ⟨k1, -, -, s1⟩ := side_exists h' ⟨hc, hf⟩ hx
  obtain ⟨k2, -, -, s2⟩ := side_exists h ⟨hm.cell c hc, hf'⟩ hy
  have n1 : D'.G.nrm k = fNrm (nodeA D'.G.m c f) (nodeB D'.G.m c f) := Disc.side_nrm (by obtain ⟨rfl, -, -⟩ := id s1; exact s1)
  have n2 : D.G.nrm (τ k) = fNrm (nodeA D.G.m (ρ c) (π c f)) (nodeB D.G.m (ρ c) (π c f)) := Disc.side_nrm (by obtain ⟨rfl, -, -⟩ := id s2; exact s2)
  obtain ⟨rfl, -, l1⟩ := s1
  obtain ⟨rfl, -, l2⟩ := s2
  have l1' : (D'.G.face k1).left = c := by rw [l1]
  have l2' : (D.G.face (τ k1)).left = ρ c := by rw [l2]
  have hsw : ∀ a b : V2, fLen a b = fLen b a := fun a b => by unfold fLen; congr 1; ring
  refine ⟨hy.1, by rw [l1']; exact hc, by rw [l1', l2'], ?_, ?_⟩
  · rw [n1, n2, hm.first c hc f hf, hm.last c hc f hf, M.fNrm_pt]
  · have e1 := hm.first c hc f hf
    have e2 := hm.last c hc f hf
    unfold Geo.len
    rw [l1, l2]
    show fLen (nodeA D'.G.m c f) (nodeB D'.G.m c f) = fLen (nodeA D.G.m (ρ c) (π c f)) (nodeB D.G.m (ρ c) (π c f))
    rw [e1, e2, M.fLen_pt, hsw]

/-- Sums over a wall of the mirror image. -/
theorem sum_mirror (h : D.G.Ok) (h' : D'.G.Ok) (hm : Disc.Mirrored M D D' ρ τ π) (hw : WallsMatch D.G.m D'.G.m τ) {u u' : ℕ → St} {g g' : ℕ → Gr} (mk : ℤ) {f f' : WallFace → ℝ}
    (he : ∀ k, k < D'.G.m.nbface → f' (wallFace D'.G.m u' g' k (D'.G.face k)) = f (wallFace D.G.m u g (τ k) (D.G.face (τ k)))) :
    ((wall mk [wallFaces D'.G.m D'.G.s u' g']).map f').sum = ((wall mk [wallFaces D.G.m D.G.s u g]).map f).sum := by
  have hl : D.G.m.nbface ≤ D.G.s.faces.length := le_of_not_gt fun hlt => by
    have := Disc.bnd_lt h hlt
    exact lt_irrefl _ this
  have hl' : D'.G.m.nbface ≤ D'.G.s.faces.length := le_of_not_gt fun hlt => by
    have := Disc.bnd_lt h' hlt
    exact lt_irrefl _ this
  rw [sum_wall hl, sum_wall hl']
  have hmaps : Set.MapsTo τ (range D'.G.m.nbface) (range D.G.m.nbface) := fun k hk => by
    simp only [Finset.coe_range, Set.mem_Iio] at hk ⊢; exact (mirrored_face h h' hm hk).1
  have hinj : Set.InjOn τ (range D'.G.m.nbface) := fun k hk k' hk' e => by
    simp only [Finset.coe_range, Set.mem_Iio] at hk hk'; exact hw.inj k k' hk hk' e
  refine Finset.sum_nbij τ (fun k hk => by exact_mod_cast hmaps (by exact_mod_cast hk)) hinj (Finset.surjOn_of_injOn_of_card_le _ hmaps hinj (by simp [hw.count])) fun k hk => ?_
  rw [hw.tag k (Finset.mem_range.1 hk)]
  congr 1
  exact he k (Finset.mem_range.1 hk)

/-- Stream normals of mirrored streams. -/
theorem wind_mirror {aoa aoa' : ℝ} (hwd : windDir aoa' = M.dir (windDir aoa)) : windNormal aoa' = - M.dir (windNormal aoa) := by
  have e0 := congrFun hwd 0
  have e1 := congrFun hwd 1
  funext d
  fin_cases d <;> simp [windNormal, e0, e1, Reflection.dir, refV]; ring

theorem dir_dot (a b : V2) : dot (M.dir a) (M.dir b) = dot a b := by
  have := dot_ref M.unit a b
  simpa [Reflection.dir] using this

theorem dir_neg (a : V2) : M.dir (-a) = - M.dir a := by funext d; fin_cases d <;> simp [Reflection.dir, refV] <;> ring

theorem dot_neg_right (a b : V2) : dot a (-b) = - dot a b := by simp [dot]; ring

section
variable {u u' : ℕ → St} {aoa aoa' : ℝ}

/-- C112: mirroring mesh, state and free stream changes the sign of the lift coefficient and keeps the pressure drag, whatever the gradients are. -/
theorem C112_mirror (h : D.G.Ok) (h' : D'.G.Ok) (hm : Disc.Mirrored M D D' ρ τ π) (hw : WallsMatch D.G.m D'.G.m τ) (hu : ∀ i, i < D'.G.m.nelem → u' i = M.st (u (ρ i)))
    (hwd : windDir aoa' = M.dir (windDir aoa)) (g g' : ℕ → Gr) (mk : ℤ) :
    (coefficients D.gas aoa' mk [wallFaces D'.G.m D'.G.s u' g']).map (fun c => (c.1, c.2.1)) =
      (coefficients D.gas aoa mk [wallFaces D.G.m D.G.s u g]).map fun c => (-c.1, c.2.1) := by
  have hp : ∀ k, k < D'.G.m.nbface → cp D.gas (wallFace D'.G.m u' g' k (D'.G.face k)) = cp D.gas (wallFace D.G.m u g (τ k) (D.G.face (τ k))) := fun k hk => by
    obtain ⟨-, h2, h3, -, -⟩ := mirrored_face h h' hm hk
    unfold cp wallFace
    simp only [h3, hu _ h2, Reflection.st, pressure_ref M.unit]
  have hL := sum_mirror h h' hm hw (u := u) (u' := u') (g := g) (g' := g') mk (f := fun F => F.len) (f' := fun F => F.len) fun k hk => (mirrored_face h h' hm hk).2.2.2.2
  have hcl := sum_mirror h h' hm hw (u := u) (u' := u') (g := g) (g' := g') mk (f := fun F => cp D.gas F * dot F.n (windNormal aoa) * F.len * -1)
    (f' := fun F => cp D.gas F * dot F.n (windNormal aoa') * F.len) fun k hk => by
      obtain ⟨-, -, -, h4, h5⟩ := mirrored_face h h' hm hk
      rw [hp k hk, wind_mirror hwd]
      show cp D.gas (wallFace D.G.m u g (τ k) (D.G.face (τ k))) * dot (D'.G.nrm k) (-M.dir (windNormal aoa)) * D'.G.len k =
        cp D.gas (wallFace D.G.m u g (τ k) (D.G.face (τ k))) * dot (D.G.nrm (τ k)) (windNormal aoa) * D.G.len (τ k) * -1
      rw [h4, h5, dot_neg_right, dir_dot]; ring
  have hcd := sum_mirror h h' hm hw (u := u) (u' := u') (g := g) (g' := g') mk (f := fun F => cp D.gas F * dot F.n (windDir aoa) * F.len)
    (f' := fun F => cp D.gas F * dot F.n (windDir aoa') * F.len) fun k hk => by
      obtain ⟨-, -, -, h4, h5⟩ := mirrored_face h h' hm hk
      rw [hp k hk, hwd]
      show cp D.gas (wallFace D.G.m u g (τ k) (D.G.face (τ k))) * dot (D'.G.nrm k) (M.dir (windDir aoa)) * D'.G.len k =
        cp D.gas (wallFace D.G.m u g (τ k) (D.G.face (τ k))) * dot (D.G.nrm (τ k)) (windDir aoa) * D.G.len (τ k)
      rw [h4, h5, dir_dot]
  rw [List.sum_map_mul_right] at hcl
  rw [coefficients_eq, coefficients_eq]
  unfold wallLen
  rw [hL, hcl, hcd]
  split_ifs with h0
  · rfl
  · simp only [Option.map_some]
    congr 2
    ring

/-- C112: a symmetric body in a stream along its axis has no lift in a symmetric state. -/
theorem C112_no_lift (h : D.G.Ok) (hm : Disc.Mirrored M D D ρ τ π) (hw : WallsMatch D.G.m D.G.m τ) (hu : Symmetric M D ρ u) (hwd : M.dir (windDir aoa) = windDir aoa)
    (g : ℕ → Gr) (mk : ℤ) {c : ℝ × ℝ × ℝ} (hc : coefficients D.gas aoa mk [wallFaces D.G.m D.G.s u g] = some c) : c.1 = 0 := by
  have := C112_mirror h h hm hw hu hwd.symm g g mk
  rw [hc] at this
  simp only [Option.map_some, Option.some.injEq, Prod.mk.injEq] at this
  linarith [this.1]

/-- C112: the friction drag is kept too if the gradients are mirrored. -/
theorem C112_friction (h : D.G.Ok) (h' : D'.G.Ok) (hm : Disc.Mirrored M D D' ρ τ π) (hw : WallsMatch D.G.m D'.G.m τ) (hu : ∀ i, i < D'.G.m.nelem → u' i = M.st (u (ρ i)))
    {g g' : ℕ → Gr} (hgr : ∀ i, i < D'.G.m.nelem → g' i = grRef M (g (ρ i))) (hwd : windDir aoa' = M.dir (windDir aoa)) (mk : ℤ) :
    coefficients D.gas aoa' mk [wallFaces D'.G.m D'.G.s u' g'] = (coefficients D.gas aoa mk [wallFaces D.G.m D.G.s u g]).map fun c => (-c.1, c.2.1, c.2.2) := by
  have hL := sum_mirror h h' hm hw (u := u) (u' := u') (g := g) (g' := g') mk (f := fun F => F.len) (f' := fun F => F.len) fun k hk => (mirrored_face h h' hm hk).2.2.2.2
  have hcf := sum_mirror h h' hm hw (u := u) (u' := u') (g := g) (g' := g') mk (f := fun F => cf D.gas F * dot (tang F.n) (windDir aoa) * F.len)
    (f' := fun F => cf D.gas F * dot (tang F.n) (windDir aoa') * F.len) fun k hk => by
      obtain ⟨-, h2, h3, h4, h5⟩ := mirrored_face h h' hm hk
      have hn' : (wallFace D'.G.m u' g' k (D'.G.face k)).n = M.dir (wallFace D.G.m u g (τ k) (D.G.face (τ k))).n := h4
      have hl' : (wallFace D'.G.m u' g' k (D'.G.face k)).len = (wallFace D.G.m u g (τ k) (D.G.face (τ k))).len := h5
      have hu' : (wallFace D'.G.m u' g' k (D'.G.face k)).u = M.st (wallFace D.G.m u g (τ k) (D.G.face (τ k))).u := by
        show u' (D'.G.face k).left = M.st (u (D.G.face (τ k)).left)
        rw [hu _ h2, h3]
      have hg' : (wallFace D'.G.m u' g' k (D'.G.face k)).grad = grRef M (wallFace D.G.m u g (τ k) (D.G.face (τ k))).grad := by
        show g' (D'.G.face k).left = grRef M (g (D.G.face (τ k)).left)
        rw [hgr _ h2, h3]
      generalize wallFace D'.G.m u' g' k (D'.G.face k) = F' at *
      generalize wallFace D.G.m u g (τ k) (D.G.face (τ k)) = F at *
      have ht : tang F'.n = - M.dir (tang F.n) := by
        rw [hn']; funext d; fin_cases d <;> simp [tang, Reflection.dir, refV] <;> ring
      have hgu : ∀ i j, gradu F' i j = M.dir (fun a => M.dir (fun b => gradu F a b) j) i := by
        intro i j
        unfold gradu
        rw [hu', hg']
        have hun := M.unit
        fin_cases i <;> fin_cases j <;> simp [grRef, Reflection.st, Reflection.dir, refS, refV, vix] <;> ring
      have hs : shearForce F' = M.dir (shearForce F) := by
        have hun := M.unit
        funext i
        unfold shearForce
        simp only [hgu, hn']
        fin_cases i
        · simp [Reflection.dir, refV]
          linear_combination (M.c * (2 * gradu F 0 0 * F.n 0 + (gradu F 0 1 + gradu F 1 0) * F.n 1) + M.s * ((gradu F 0 1 + gradu F 1 0) * F.n 0 + 2 * gradu F 1 1 * F.n 1)) * hun
        · simp [Reflection.dir, refV]
          linear_combination (M.s * (2 * gradu F 0 0 * F.n 0 + (gradu F 0 1 + gradu F 1 0) * F.n 1) - M.c * ((gradu F 0 1 + gradu F 1 0) * F.n 0 + 2 * gradu F 1 1 * F.n 1)) * hun
      have hv : D.gas.viscosityC F'.u = D.gas.viscosityC F.u := by
        simp only [Gas.viscosityC, Gas.temperatureC, hu', Reflection.st, pressure_ref M.unit, refS_0]
      unfold cf
      rw [hv, hs, ht, hl', dot_neg_right, dir_dot, hwd]
      rw [show dot (-M.dir (tang F.n)) (M.dir (windDir aoa)) = - dot (tang F.n) (windDir aoa) by rw [← dir_dot (M := M) (tang F.n)]; simp [dot]; ring]
      ring
  have hmir := C112_mirror h h' hm hw hu hwd g g' mk
  rw [coefficients_eq, coefficients_eq] at hmir ⊢
  unfold wallLen at hmir ⊢
  rw [hL, hcf] at hmir ⊢
  split_ifs at hmir ⊢ with h0
  · rfl
  · simp only [Option.map_some, Option.some.injEq, Prod.mk.injEq] at hmir ⊢
    exact ⟨hmir.1, hmir.2, trivial⟩

/-- C112, whole runs of the explicit steady solver (first order, inviscid): from a symmetric state every iterate is symmetric and has no lift. -/
theorem C112_run (h : D.G.Ok) (hm : Disc.Mirrored M D D ρ τ π) (hw : WallsMatch D.G.m D.G.m τ) (hb : D.BcOk) (hg : 4 ≤ 3 * D.gas.g) (hwd : M.dir (windDir aoa) = windDir aoa)
    (hu : Symmetric M D ρ u) {cf : Conf} {n : ℕ} (hadm : ∀ j, j < n → ∀ t, traj forwardEuler (single D) cf u j = some t → ∀ i, i < D.G.m.nelem → Adm D.gas (t.u i))
    {t : Mem (ℕ → St)} (ht : traj forwardEuler (single D) cf u n = some t) :
    Symmetric M D ρ t.u ∧ ∀ (g : ℕ → Gr) (mk : ℤ) (c : ℝ × ℝ × ℝ), coefficients D.gas aoa mk [wallFaces D.G.m D.G.s t.u g] = some c → c.1 = 0 := by
  suffices hs : Symmetric M D ρ t.u from ⟨hs, fun g mk c hc => C112_no_lift h hm hw hs hwd g mk hc⟩
  induction n generalizing t with
  | zero =>
    rw [traj] at ht
    cases ht
    exact hu
  | succ n ih =>
    rw [traj] at ht
    obtain ⟨b, hb1, hb2⟩ := Option.bind_eq_some_iff.1 ht
    have hsb := ih (fun j hj => hadm j (by omega)) hb1
    have hA := hadm n (by omega) b hb1
    unfold body at hb2
    cases hN : (single D).norm b.u with
    | none => rw [hN] at hb2; simp at hb2
    | some r =>
      rw [hN] at hb2
      simp only [Option.some.injEq] at hb2
      rw [← hb2]
      exact fun i hi => Disc.C100_mirrored_update h h hm hb hg hsb hA _ i hi

end
end

/-- C112: from the mirrored mesh file, started from the mirrored state in the mirrored stream, the explicit steady solver (first order, inviscid) ends alike, after the same number of
iterations, with opposite lift and the same pressure drag. -/
theorem C112_mirror_run (M : Reflection) {m : Mesh} {s : FState} {P : Settings} (hc : Conforming m) (hn : m.nconnface = 0) (hz : NoZeroFace m) (ht : topological m = .ok s)
    (hv : P.viscous = false) (hb : (P.disc m s 0).BcOk) (hg : 4 ≤ 3 * P.gas.g) {w : ℕ → St} {c : Conf} {k : ℕ} {out : Ode.Out}
    (hrun : Solve forwardEuler (single (P.disc m s 0)) c w k out)
    (hadm : ∀ j, j < k → ∀ t, traj forwardEuler (single (P.disc m s 0)) c w j = some t → ∀ i, i < m.nelem → Adm P.gas (t.u i)) {aoa aoa' : ℝ} (hwd : windDir aoa' = M.dir (windDir aoa)) :
    ∃ s', topological (M.mesh m) = .ok s' ∧ Solve forwardEuler (single ((M.settings P).disc (M.mesh m) s' 0)) c (fun i => M.st (w i)) k out ∧
    ∀ t, Loop (Ode.cond c) (body forwardEuler (single (P.disc m s 0)) c) (init forwardEuler c w) k (some t) →
      ∃ t', Loop (Ode.cond c) (body forwardEuler (single ((M.settings P).disc (M.mesh m) s' 0)) c) (init forwardEuler c fun i => M.st (w i)) k (some t') ∧
        ∀ (g g' : ℕ → Gr) (mk : ℤ), (coefficients P.gas aoa' mk [wallFaces (M.mesh m) s' t'.u g']).map (fun c => (c.1, c.2.1)) =
          (coefficients P.gas aoa mk [wallFaces m s t.u g]).map fun c => (-c.1, c.2.1) := by
  obtain ⟨s', hs', hok', hm⟩ := M.C100_setup (P := P) hc hn hz ht hv
  obtain ⟨s'', hs'', h1, -, h3⟩ := M.C100_mirror_run hc hn hz ht hv hb hg hrun hadm
  obtain rfl : s' = s'' := by rw [hs'] at hs''; injection hs''
  refine ⟨s', hs', h1, fun t hl => ?_⟩
  obtain ⟨t', a, b, -⟩ := h3 t hl
  exact ⟨t', a, fun g g' mk => C112_mirror (D := P.disc m s 0) ⟨hc, hz, ht⟩ hok' hm ⟨rfl, fun _ _ _ _ e => e, fun _ _ => rfl⟩ b hwd g g' mk⟩

/-! ### Two streams that meet -/

/-- A stream to the right in one square and its mirror image in the other; the free stream goes upwards, along the axis. With van Leer's flux the run never leaves the admissible states, and
there is never any lift. -/
example : ∃ s, topological pair = .ok s ∧ ∀ n, ∃ t, traj forwardEuler (single ((airOut .vanLeer).disc pair s 0)) ⟨0, 100, 1, 1⟩ (two ![1, 1, 2, 5] ![1, -1, 2, 5]) n = some t ∧
    ∀ g, ∃ c, coefficients FVENS.air (Real.pi / 2) 1 [wallFaces pair s t.u g] = some c ∧ c.1 = 0 := by
  obtain ⟨s, hs, hf⟩ := pair_topological
  obtain ⟨s', hs'⟩ := halfPair_topological
  refine ⟨s, hs, fun n => ?_⟩
  set D := (airOut .vanLeer).disc pair s 0 with hD
  have hok : D.G.Ok := ⟨pair_conforming, pair_nozero, hs⟩
  have hA : ∀ i, i < D.G.m.nelem → Adm D.gas (two ![1, 1, 2, 5] ![1, -1, 2, 5] i) := fun i _ => by
    unfold two
    split_ifs
    · exact ⟨by show 1 < FVENS.air.g; norm_num [FVENS.air], by norm_num, by simp [Gas.pressure, Gas.pressureOfInternal, dot, mom, hD, Settings.disc, airOut, FVENS.air]; norm_num⟩
    · exact ⟨by show 1 < FVENS.air.g; norm_num [FVENS.air], by norm_num, by simp [Gas.pressure, Gas.pressureOfInternal, dot, mom, hD, Settings.disc, airOut, FVENS.air]; norm_num⟩
  have hpos := (C93_run_partial hok rfl (by show 4 ≤ 3 * FVENS.air.g; norm_num [FVENS.air]) (by show FVENS.air.g ≤ 3; norm_num [FVENS.air]) rfl (fun k _ => ⟨.extrapolation, rfl, trivial⟩) rfl
    (fun i hi => by show 0 < (area pair i).getD 0; rw [pair_area hi]; norm_num) (c := ⟨0, 100, 1, 1⟩) (by norm_num) (by norm_num) hA).1
  obtain ⟨t, ht, -⟩ := hpos n
  refine ⟨t, ht, fun g => ?_⟩
  have hsym : Disc.Mirrored atOne D D swap2 swapB fun _ f => (4 - f) % 4 := (pair_cut hs hs' .vanLeer).sym
  have hw : WallsMatch D.G.m D.G.m swapB := ⟨rfl, fun k k' hk hk' e => by
    have hk : k < 6 := hk
    have hk' : k' < 6 := hk'
    unfold swapB at e
    split_ifs at e <;> omega, fun _ _ => rfl⟩
  have hwd : atOne.dir (windDir (Real.pi / 2)) = windDir (Real.pi / 2) := by
    obtain ⟨e0, e1⟩ := wind_unit (Real.pi / 2)
    rw [Real.cos_pi_div_two] at e0
    rw [Real.sin_pi_div_two] at e1
    funext d
    fin_cases d <;> simp [Reflection.dir, refV, atOne, e0, e1]
  have hS : Symmetric atOne D swap2 (two ![1, 1, 2, 5] ![1, -1, 2, 5]) := fun i hi => by
    have hi : i < 2 := hi
    obtain rfl | rfl : i = 0 ∨ i = 1 := by omega
    all_goals
      funext v
      fin_cases v <;> simp [two, swap2, Reflection.st, refS, atOne]
  have key := (C112_run hok hsym hw (fun _ _ => rfl) (by show 4 ≤ 3 * FVENS.air.g; norm_num [FVENS.air]) hwd hS (cf := ⟨0, 100, 1, 1⟩) (n := n)
    (fun j _ t' ht' => by obtain ⟨t'', h1, h2⟩ := hpos j; rw [h1] at ht'; cases ht'; exact h2) ht).2 g 1
  have hsome : ∃ c, coefficients FVENS.air (Real.pi / 2) 1 [wallFaces pair s t.u g] = some c := by
    rw [coefficients_eq]
    rw [if_neg]
    · exact ⟨_, rfl⟩
    · unfold wallLen
      rw [sum_wall (by rw [hf]; decide +kernel)]
      refine (Finset.sum_pos (fun k hk => ?_) ⟨0, by simp [pair]⟩).ne'
      have hk : k < 6 := Finset.mem_range.1 hk
      rw [if_pos (show ((pair.btag k 0 : ℕ) : ℤ) = 1 from rfl)]
      exact Disc.len_pos hok (k := k) (by show k < s.faces.length; rw [hf]; show k < 7; omega)
  obtain ⟨c, hc⟩ := hsome
  exact ⟨c, hc, key c hc⟩

end Out
end FVENS
