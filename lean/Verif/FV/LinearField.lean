import Verif.FV.GradExact
import Verif.FV.Residual

/-!
# Linear fields in the second-order residual (C45, C46)

The gradient and reconstruction options together, as the residual uses them.
-/

namespace FVENS
namespace FV

open Msh Finset Flux

namespace Disc
variable {D : Disc}

/-- Meshes on which a gradient scheme is exact for linear fields. -/
def GradExact (G : Geo) : GradScheme → Prop
  | .zero => False
  | .greenGauss => ∀ i, i < G.m.nelem → area G.m i = some (G.ar i) ∧ G.ar i ≠ 0 ∧ ∀ k, k < G.nface → G.touches i k → Between (G.xl k) (G.mid k) (G.xr k)
  | .wls => ∀ i, i < G.m.nelem → G.Separate i ∧ G.Spans i

/-- A linear vector field: value `c` at the origin, derivatives `g`. -/
def linSt (c : St) (g : Gr) (x : Fin 2 → ℝ) : St := fun v => c v + g 0 v * x 0 + g 1 v * x 1

/-- C45, by option: on such meshes the gradients handed on by either scheme are those of the linear field, in every cell. -/
theorem C45_options (h : D.G.Ok) {gs : GradScheme} (hgs : GradExact D.G gs) {c : St} {g : Gr} {u ug : ℕ → St}
    (hu : ∀ i, i < D.G.rows → u i = linSt c g (D.G.rc i)) (hug : ∀ k, k < D.G.m.nbface → ug k = linSt c g (D.G.rcbp k)) (old : ℕ → Gr)
    {i : ℕ} (hi : i < D.G.m.nelem) : D.gradients gs u ug old i = g := by
  unfold gradients
  rw [if_pos hi]
  cases gs with
  | zero => exact hgs.elim
  | greenGauss =>
    obtain ⟨h1, h2, h3⟩ := hgs i hi
    exact Geo.C45_greenGauss_linear_exact h hi h1 h2 h3 c g (fun i hi j => by rw [hu i hi]; rfl) (fun k hk j => by rw [hug k hk]; rfl)
  | wls =>
    obtain ⟨h1, h2⟩ := hgs i hi
    exact Geo.C45_wls_linear_exact h hi h1 h2 c g (fun i hi j => by rw [hu i hi, linSt]; ring) (fun k hk j => by rw [hug k hk, linSt]; ring)

/-- Reconstruction schemes exact for linear fields. -/
def ReconExact : ReconScheme → Prop
  | .linear => True
  | .muscl => True
  | .weno lam => 0 < lam
  | .barthJespersen => False
  | .venkatakrishnan _ => False

/-- Where the reconstructed value of a face is that of the field: halfway between the centres for MUSCL, the middle of the face otherwise. -/
noncomputable def facePoint (G : Geo) : ReconScheme → ℕ → Fin 2 → ℝ
  | .muscl, k => fun d => (G.xl k d + G.xr k d) / 2
  | _, k => G.mid k

/-- Rows of the gradient array which a reconstruction scheme reads beside those of the cells of the subdomain: the connectivity ghosts' for WENO and MUSCL. -/
def readsGhosts : ReconScheme → Prop
  | .muscl => True
  | .weno _ => True
  | _ => False

/-- C46, by option and for one variable. -/
theorem C46_options (h : D.G.Ok) {R : ReconScheme} (hR : ReconExact R) {c : ℝ} {s : Fin 2 → ℝ} {u ug : ℕ → ℝ} {g : ℕ → Fin 2 → ℝ} (a : Bool × ℕ → ℝ)
    (hu : ∀ i, i < D.G.rows → u i = Geo.lin c s (D.G.rc i)) (hug : ∀ k, k < D.G.m.nbface → ug k = Geo.lin c s (D.G.rcbp k))
    (hg : ∀ i, i < D.G.m.nelem → g i = s) (hgg : readsGhosts R → ∀ i, i < D.G.rows → g i = s) :
    ∃ b, D.recon1 R u ug g a = some b ∧ ∀ k, k < D.G.nface → b (true, k) = Geo.lin c s (facePoint D.G R k) ∧
      (D.G.inner k → b (false, k) = Geo.lin c s (facePoint D.G R k)) := by
  cases R with
  | linear =>
    have e := fun k hk => Geo.C46_linear (G := D.G) h c s (u := u) (g := g) (gr := D.G.mid) hu hg (k := k) hk
    refine ⟨_, by simp only [recon1, faceArr]; rw [if_pos fun k hk => by rw [e k hk]; rfl], fun k hk => ?_⟩
    simp only [hk, if_true, e k hk, Option.getD_some, facePoint]
    exact ⟨trivial, fun hin => by simp [hin]⟩
  | muscl =>
    have e := fun k hk => Geo.C46_muscl (G := D.G) h c s (u := u) (g := g) hu hug (hgg trivial) (k := k) hk
    refine ⟨_, by simp only [recon1, faceArr]; rw [if_pos fun k hk => by rw [e k hk]; rfl], fun k hk => ?_⟩
    simp only [hk, if_true, e k hk, Option.getD_some, facePoint]
    refine ⟨trivial, fun hin => ?_⟩
    have : ¬ k < D.G.m.nbface := by have := hin.1; omega
    simp [this]
  | weno lam => exact Geo.C46_weno h hR c s hu (hgg trivial) a
  | barthJespersen => exact hR.elim
  | venkatakrishnan _ => exact hR.elim

/-- C46, in the residual: if the primitive variables of the cells, of the received ghost cells and of the states the boundary conditions give for the boundary cells are those of a linear
field, and ghost rows of the gradients read by the scheme hold its derivatives, then both states of every face between two cells, and the inner state of every other face, are the
states of the field at one point of that face (for MUSCL: the point halfway between the centres). -/
theorem C46_face_states (h : D.G.Ok) (hbc : D.BcOk) {gs : GradScheme} (hgs : GradExact D.G gs) {R : ReconScheme} (hR : ReconExact R) {c : St} {g : Gr} {E : Env} {u : ℕ → St}
    (hu : ∀ i, i < D.G.rows → D.gas.primOfCons (u i) = linSt c g (D.G.rc i))
    (hug : ∀ k, k < D.G.m.nbface → D.gas.primOfCons (D.bstate k (u (D.G.face k).left)) = linSt c g (D.G.rcbp k))
    (hgold : R = .muscl → ∀ i, D.G.m.nelem ≤ i → i < D.G.rows → E.gold i = g)
    (hgg : ∀ lam, R = .weno lam → ∀ i, D.G.m.nelem ≤ i → i < D.G.rows → E.gg i = g) (r : ℕ → St) :
    ∃ o, D.residual2 gs R E u r = some o ∧ ∀ k, k < D.G.nface → o.uL k = D.gas.consOfPrim (linSt c g (facePoint D.G R k)) ∧
      (D.G.inner k → o.uR k = D.gas.consOfPrim (linSt c g (facePoint D.G R k))) := by
  set ug : ℕ → St := fun k => D.gas.primOfCons (D.bstate k (u (D.G.face k).left))
  set up : ℕ → St := fun i => D.gas.primOfCons (u i)
  set a0 : Bool × ℕ → St := fun x => if x.2 < D.G.m.nbface then (if x.1 then u (D.G.face x.2).left else ug x.2) else E.old x
  set grec : ℕ → Gr := match R with
    | .weno _ => D.gradients gs up ug E.gg
    | _ => D.gradients gs up ug E.gold with hgrec
  have hown : ∀ i, i < D.G.m.nelem → grec i = g := fun i hi => by
    cases R <;> exact C45_options h hgs hu hug _ hi
  have hall : readsGhosts R → ∀ i, i < D.G.rows → grec i = g := fun hr i hi => by
    by_cases hc : i < D.G.m.nelem
    · exact hown i hc
    · cases R with
      | muscl => simp only [hgrec, gradients, hc, if_false]; exact hgold rfl i (by omega) hi
      | weno lam => simp only [hgrec, gradients, hc, if_false]; exact hgg lam rfl i (by omega) hi
      | _ => exact hr.elim
  have hlin : ∀ v x, linSt c g x v = Geo.lin (c v) (fun d => g d v) x := fun v x => by unfold linSt Geo.lin; ring
  have key := fun v : Fin 4 => C46_options h hR (c := c v) (s := fun d => g d v) (u := fun i => up i v) (ug := fun k => ug k v) (g := fun i d => grec i d v) (fun x => a0 x v)
    (fun i hi => by rw [← hlin]; exact congrFun (hu i hi) v) (fun k hk => by rw [← hlin]; exact congrFun (hug k hk) v)
    (fun i hi => by rw [hown i hi]) (fun hr i hi => by rw [hall hr i hi])
  choose b hb1 hb2 using key
  have hrec : D.recon R up ug grec a0 = some fun x v => b v x := by
    unfold recon
    simp only
    rw [if_pos fun v => by rw [hb1 v]; rfl]
    congr 1
    funext x v
    rw [hb1 v]; rfl
  have hres : ∃ o, D.residual2 gs R E u r = some o ∧ (∀ k, o.uL k = D.gas.consOfPrim fun v => b v (true, k)) ∧
      ∀ k, ¬ k < D.G.m.nbface → D.G.inner k → o.uR k = D.gas.consOfPrim fun v => b v (false, k) := by
    refine ⟨_, by unfold residual2; rw [if_pos hbc]; cases R <;> exact congrArg (Option.map _) hrec, fun k => rfl, fun k h1 h2 => ?_⟩
    simp only [h1, h2, if_false, if_true]
  obtain ⟨o, ho, h1, h2⟩ := hres
  have hv : ∀ k, k < D.G.nface → (fun v => b v (true, k)) = linSt c g (facePoint D.G R k) := fun k hk => by
    funext v; rw [hlin]; exact (hb2 v k hk).1
  refine ⟨o, ho, fun k hk => ⟨by rw [h1, hv k hk], fun hin => ?_⟩⟩
  rw [h2 k (by have := hin.1; omega) hin]
  congr 1
  funext v; rw [hlin]; exact (hb2 v k hk).2 hin

/-- C46: hence the convective flux through every face between two cells is the exact flux of the field at that point, wherever its state there is admissible, for every flux scheme. -/
theorem C46_exact_flux (h : D.G.Ok) (hbc : D.BcOk) {gs : GradScheme} (hgs : GradExact D.G gs) {R : ReconScheme} (hR : ReconExact R) {c : St} {g : Gr} {E : Env} {u : ℕ → St}
    (hu : ∀ i, i < D.G.rows → D.gas.primOfCons (u i) = linSt c g (D.G.rc i))
    (hug : ∀ k, k < D.G.m.nbface → D.gas.primOfCons (D.bstate k (u (D.G.face k).left)) = linSt c g (D.G.rcbp k))
    (hgold : R = .muscl → ∀ i, D.G.m.nelem ≤ i → i < D.G.rows → E.gold i = g)
    (hgg : ∀ lam, R = .weno lam → ∀ i, D.G.m.nelem ≤ i → i < D.G.rows → E.gg i = g) (r : ℕ → St) :
    ∃ o, D.residual2 gs R E u r = some o ∧ ∀ k, k < D.G.nface → D.G.inner k → Adm D.gas (D.gas.consOfPrim (linSt c g (facePoint D.G R k))) →
      D.scheme.flux D.gas (o.uL k) (o.uR k) (D.G.nrm k) = D.gas.eulerFlux (D.gas.consOfPrim (linSt c g (facePoint D.G R k))) (D.G.nrm k) := by
  obtain ⟨o, ho, h1⟩ := C46_face_states h hbc hgs hR hu hug hgold hgg r
  refine ⟨o, ho, fun k hk hin ha => ?_⟩
  rw [(h1 k hk).1, (h1 k hk).2 hin, C15_consistency _ _ _ ha]

end Disc

theorem Geo.isle_wls : Disc.GradExact Geo.isleGeo .wls := by
  have hf : Geo.isleGeo.s.faces = _ := Geo.isle_topological.choose_spec.2
  have hn : Geo.isleGeo.nface = 8 := by unfold Geo.nface; rw [hf]; rfl
  have hface : ∀ k, Geo.isleGeo.face k = faceAt Geo.isleGeo.s.faces k := fun _ => rfl
  have hb : Geo.isleGeo.m.nbface = 0 := rfl
  intro i hi
  have hi : i < 4 := hi
  have key : ∀ k < 8, ∀ i, Geo.isleGeo.touches i k → Geo.isleGeo.dr k ≠ 0 := by
    intro k hk i _ e
    have e0 := congrFun e 0
    unfold Geo.dr Geo.xl Geo.xr at e0
    simp only [hb, Nat.not_lt_zero, if_false, hface, hf] at e0
    interval_cases k <;> norm_num [faceAt, Geo.isleGeo] at e0
  refine ⟨fun k hk => key k (by omega) i, ?_⟩
  have h2 : ∀ k k', k < 8 → k' < 8 → Geo.isleGeo.touches i k → Geo.isleGeo.touches i k' → Geo.isleGeo.dr k 0 * Geo.isleGeo.dr k' 1 - Geo.isleGeo.dr k 1 * Geo.isleGeo.dr k' 0 ≠ 0 →
      Geo.isleGeo.Spans i := fun k k' a b c d e => ⟨k, k', by omega, by omega, c, d, e⟩
  interval_cases i
  · refine h2 0 1 (by omega) (by omega) (.inl (by rw [hface, hf]; rfl)) (.inl (by rw [hface, hf]; rfl)) ?_
    unfold Geo.dr Geo.xl Geo.xr
    simp only [hb, Nat.not_lt_zero, if_false, hface, hf]
    norm_num [faceAt, Geo.isleGeo]
  · refine h2 0 2 (by omega) (by omega) (.inr (by rw [hface, hf]; rfl)) (.inl (by rw [hface, hf]; rfl)) ?_
    unfold Geo.dr Geo.xl Geo.xr
    simp only [hb, Nat.not_lt_zero, if_false, hface, hf]
    norm_num [faceAt, Geo.isleGeo]
  · refine h2 2 3 (by omega) (by omega) (.inr (by rw [hface, hf]; rfl)) (.inl (by rw [hface, hf]; rfl)) ?_
    unfold Geo.dr Geo.xl Geo.xr
    simp only [hb, Nat.not_lt_zero, if_false, hface, hf]
    norm_num [faceAt, Geo.isleGeo]
  · refine h2 1 3 (by omega) (by omega) (.inr (by rw [hface, hf]; rfl)) (.inr (by rw [hface, hf]; rfl)) ?_
    unfold Geo.dr Geo.xl Geo.xr
    simp only [hb, Nat.not_lt_zero, if_false, hface, hf]
    norm_num [faceAt, Geo.isleGeo]

/-- Hypotheses of `C46_face_states` and `C46_exact_flux` are met: four triangles inside a larger mesh, density 2 + x, velocity (3 + y, 1 + x - y), pressure 4 + x / 2, least-squares
gradients and any of the three exact schemes. The face between cells 0 and 1 has the state of the field at its point, and the flux is exact for MUSCL. -/
example (R : ReconScheme) (hR : Disc.ReconExact R) (sch : Scheme) (r : ℕ → St) (old : Bool × ℕ → St) (ex : ℕ → St) :
    let D : Disc := ⟨Geo.isleGeo, air, sch, false, false, fun _ => none, fun _ => 0⟩
    let c : St := ![2, 3, 1, 4]
    let g : Gr := ![![1, 0, 1, 1 / 2], ![0, 1, -1, 0]]
    ∃ o, D.residual2 .wls R ⟨ex, fun _ => g, fun _ => g, old⟩ (fun i => air.consOfPrim (Disc.linSt c g (Geo.isleGeo.rc i))) r = some o ∧
      (∀ k, k < 8 → o.uL k = air.consOfPrim (Disc.linSt c g (Disc.facePoint Geo.isleGeo R k))) ∧
      (R = .muscl → sch.flux air (o.uL 0) (o.uR 0) (Geo.isleGeo.nrm 0) = air.eulerFlux (air.consOfPrim ![2 + 2 / 3, 3 + 1 / 3, 1 + 1 / 3, 4 + 1 / 3]) (Geo.isleGeo.nrm 0)) := by
  intro D c g
  have hf : Geo.isleGeo.s.faces = _ := Geo.isle_topological.choose_spec.2
  have hn : Geo.isleGeo.nface = 8 := by unfold Geo.nface; rw [hf]; rfl
  have hrc : ∀ i, 0 ≤ Geo.isleGeo.rc i 0 := fun i => by
    simp only [Geo.isleGeo]
    split_ifs <;> norm_num
  have hlin : ∀ x, Disc.linSt c g x = ![2 + x 0, 3 + x 1, 1 + x 0 - x 1, 4 + x 0 / 2] := fun x => by
    funext v; fin_cases v <;> simp [Disc.linSt, c, g] <;> ring
  have hu : ∀ i, i < Geo.isleGeo.rows → air.primOfCons (air.consOfPrim (Disc.linSt c g (Geo.isleGeo.rc i))) = Disc.linSt c g (Geo.isleGeo.rc i) := fun i _ =>
    C01_prim_cons_prim air (by norm_num [air]) _ (by rw [hlin]; have := hrc i; simp; positivity)
  obtain ⟨o, ho, h1⟩ := Disc.C46_face_states (D := D) Geo.isleGeo_ok (fun k hk => absurd hk (Nat.not_lt_zero k)) Geo.isle_wls hR (c := c) (g := g)
    (E := ⟨ex, fun _ => g, fun _ => g, old⟩) (u := fun i => air.consOfPrim (Disc.linSt c g (Geo.isleGeo.rc i)))
    hu (fun k hk => absurd hk (Nat.not_lt_zero k)) (fun _ _ _ _ => rfl) (fun _ _ _ _ _ => rfl) r
  obtain ⟨o', ho', h2⟩ := Disc.C46_exact_flux (D := D) Geo.isleGeo_ok (fun k hk => absurd hk (Nat.not_lt_zero k)) Geo.isle_wls hR (c := c) (g := g)
    (E := ⟨ex, fun _ => g, fun _ => g, old⟩) (u := fun i => air.consOfPrim (Disc.linSt c g (Geo.isleGeo.rc i)))
    hu (fun k hk => absurd hk (Nat.not_lt_zero k)) (fun _ _ _ _ => rfl) (fun _ _ _ _ _ => rfl) r
  rw [ho, Option.some.injEq] at ho'
  subst ho'
  refine ⟨o, ho, fun k hk => (h1 k (by rw [← hn] at hk; exact hk)).1, fun hm => ?_⟩
  subst hm
  have f0 : Geo.isleGeo.face 0 = ⟨0, 1, 1, 4⟩ := by unfold Geo.face; rw [hf]; rfl
  have hp : Disc.linSt c g (Disc.facePoint Geo.isleGeo .muscl 0) = ![2 + 2 / 3, 3 + 1 / 3, 1 + 1 / 3, 4 + 1 / 3] := by
    have hb : Geo.isleGeo.m.nbface = 0 := rfl
    rw [hlin]
    simp only [Disc.facePoint, Geo.xl, Geo.xr, hb, f0]
    funext v; fin_cases v <;> norm_num [Geo.isleGeo]
  have := h2 0 (by rw [show D.G.nface = 8 from hn]; omega) ((Geo.isleGeo_ok.kind (k := 0) (by omega)).2.2.2.1.2 (by rw [f0]; show 1 < 4; omega)) (by
    show Adm air _
    rw [show D.gas = air from rfl, show D.G = Geo.isleGeo from rfl, hp]
    exact ⟨by norm_num [air], by norm_num [Gas.consOfPrim], by
      simp [Gas.consOfPrim, Gas.pressure, Gas.pressureOfInternal, Gas.energyOfPrim, Gas.energyOfP, air, dot, mom]; norm_num⟩)
  rw [show D.gas = air from rfl, show D.G = Geo.isleGeo from rfl, hp] at this
  exact this

/-- The hypotheses of `C45_options` and `C46_options` are met on the same triangles: the least-squares gradients of the linear state in cell 2, whatever was stored before, and the values of a linear
field at both sides of all interior faces. -/
example (R : ReconScheme) (hR : Disc.ReconExact R) (sch : Scheme) (ug : ℕ → St) (vg : ℕ → ℝ) (old : ℕ → Gr) (a : Bool × ℕ → ℝ) :
    let D : Disc := ⟨Geo.isleGeo, air, sch, false, false, fun _ => none, fun _ => 0⟩
    let g : Gr := ![![1, 0, 1, 1 / 2], ![0, 1, -1, 0]]
    D.gradients .wls (fun i => Disc.linSt ![2, 3, 1, 4] g (Geo.isleGeo.rc i)) ug old 2 = g ∧
    ∃ b, D.recon1 R (fun i => 5 + Geo.isleGeo.rc i 0 * 2 - Geo.isleGeo.rc i 1) vg (fun _ => ![2, -1]) a = some b ∧
      ∀ k, k < 8 → b (true, k) = 5 + (Disc.facePoint Geo.isleGeo R k) 0 * 2 - (Disc.facePoint Geo.isleGeo R k) 1 := by
  intro D g
  have hf : Geo.isleGeo.s.faces = _ := Geo.isle_topological.choose_spec.2
  have hn : Geo.isleGeo.nface = 8 := by unfold Geo.nface; rw [hf]; rfl
  have hlin : ∀ x, Geo.lin 5 ![2, -1] x = 5 + x 0 * 2 - x 1 := fun x => by simp [Geo.lin]; ring
  obtain ⟨b, hb, h1⟩ := Disc.C46_options (D := D) Geo.isleGeo_ok hR (c := 5) (s := ![2, -1]) (u := fun i => 5 + Geo.isleGeo.rc i 0 * 2 - Geo.isleGeo.rc i 1) (ug := vg)
    (g := fun _ => ![2, -1]) a (fun i _ => (hlin _).symm) (fun k hk => absurd hk (Nat.not_lt_zero k)) (fun _ _ => rfl) (fun _ _ _ => rfl)
  exact ⟨Disc.C45_options (D := D) Geo.isleGeo_ok Geo.isle_wls (fun _ _ => rfl) (fun k hk => absurd hk (Nat.not_lt_zero k)) old (by show 2 < 4; omega),
    b, hb, fun k hk => by rw [(h1 k (by rw [← hn] at hk; exact hk)).1, hlin]⟩

end FV
end FVENS
