import Verif.Out.Surface
import Verif.Out.Nodal
import Verif.Mesh.Faces
import Verif.Par.Layout

/-!
# Result files (model of `FlowOutput::exportSurfaceData`, `exportVolumeData`, `postprocess_cell`)

Numbers are written as they are: the rounding to the six digits of the stream is not modelled. All files can be opened.
-/

namespace FVENS
namespace Out
open Msh

/-! ### Model -/

/-- The two kinds of surface files, `<prefix>-surf_w<marker>.out` and `<prefix>-surf_o<marker>.out`, src/spatial/aoutput.cpp:211, 248. -/
inductive Kind
  | wall
  | other
  deriving DecidableEq

/-- A surface file: rows of four numbers and, in files of walls, the line with `Cl`, `Cdp`, `Cdf` (`none` if they are `0/0`),
src/spatial/aoutput.cpp:225-233, 291-296. -/
structure SurfFile where
  rows : List (Fin 4 → ℝ)
  trailer : Option (ℝ × ℝ × ℝ)

/-- Marker `gbtags(iface,0)`; without tags the access is out of bounds (`none`), src/mesh/mesh.hpp:162. -/
def marker0 (m : Mesh) (k : ℕ) : Option ℤ := if m.nbtag = 0 then none else some (m.btag k 0)

/-- Number of boundary faces with a marker, src/spatial/aoutput.cpp:197-205. -/
def countFaces (m : Mesh) (mk : ℤ) : Option ℕ :=
  (List.range m.nbface).foldlM (fun c k => (marker0 m k).map fun t => if t = mk then c + 1 else c) 0

/-- Filling `output`, which has `cap` rows, at `facecoun`; writing beyond it is undefined (`none`), src/spatial/flow_spatial.cpp:156-179, 298,
src/spatial/aoutput.cpp:257-289. -/
def collect (m : Mesh) (mk : ℤ) (cap : ℕ) (row : ℕ → Option (Fin 4 → ℝ)) : Option (List (Fin 4 → ℝ)) :=
  (List.range m.nbface).foldlM (fun out k => (marker0 m k).bind fun t =>
    if t = mk then (if out.length < cap then (row k).map fun r => out ++ [r] else none) else some out) []

/-- Printing all `cap` rows; a row not written would be uninitialised (`none`), src/spatial/aoutput.cpp:225-230, 291-296. -/
def printed (cap : ℕ) (out : List (Fin 4 → ℝ)) : Option (List (Fin 4 → ℝ)) := if out.length = cap then some out else none

/-- Face centre, src/spatial/flow_spatial.cpp:172-178, src/spatial/aoutput.cpp:268-279. -/
noncomputable def faceMid (m : Mesh) (F : Face) (d : Fin 2) : ℝ := (0 + m.coords F.n0 d + m.coords F.n1 d) / 2

/-- What `computeSurfaceData` reads at a face of the list, src/spatial/flow_spatial.cpp:159-161. -/
noncomputable def wallFace (m : Mesh) (u : ℕ → St) (grad : ℕ → Gr) (k : ℕ) (F : Face) : WallFace where
  tag := m.btag k 0
  n := fNrm (m.coords F.n0) (m.coords F.n1)
  len := fLen (m.coords F.n0) (m.coords F.n1)
  u := u F.left
  grad := grad F.left

/-- Row of a wall face, src/spatial/flow_spatial.cpp:178, 205, 255. -/
noncomputable def wallRow (g : Gas) (m : Mesh) (u : ℕ → St) (grad : ℕ → Gr) (k : ℕ) (F : Face) : Fin 4 → ℝ :=
  ![faceMid m F 0, faceMid m F 1, cp g (wallFace m u grad k F), cf g (wallFace m u grad k F)]

/-- Row of a face of another boundary, src/spatial/aoutput.cpp:261-287. -/
noncomputable def otherRow (m : Mesh) (u : ℕ → St) (F : Face) : Fin 4 → ℝ :=
  ![faceMid m F 0, faceMid m F 1, u F.left 1 / u F.left 0, u F.left 2 / u F.left 0]

/-- The boundary faces as the force loop sees them on a single process, src/spatial/flow_spatial.cpp:155-161. -/
noncomputable def wallFaces (m : Mesh) (s : FState) (u : ℕ → St) (grad : ℕ → Gr) : List WallFace :=
  (List.range m.nbface).filterMap fun k => (s.faces[k]?).map (wallFace m u grad k)

/-- One file of a wall, src/spatial/aoutput.cpp:209-241. -/
noncomputable def wallFile (g : Gas) (aoa : ℝ) (m : Mesh) (s : FState) (u : ℕ → St) (grad : ℕ → Gr) (mk : ℤ) : Option SurfFile :=
  (countFaces m mk).bind fun cap => (collect m mk cap fun k => (s.faces[k]?).map (wallRow g m u grad k)).bind fun out =>
    (printed cap out).map fun rows => ⟨rows, coefficients g aoa mk [wallFaces m s u grad]⟩

/-- One file of another boundary, src/spatial/aoutput.cpp:246-297. -/
noncomputable def otherFile (m : Mesh) (s : FState) (u : ℕ → St) (mk : ℤ) : Option SurfFile :=
  (countFaces m mk).bind fun cap => (collect m mk cap fun k => (s.faces[k]?).map (otherRow m u)).bind fun out =>
    (printed cap out).map fun rows => ⟨rows, none⟩

/-- Files by kind and marker. -/
abbrev Disk := Kind → ℤ → Option SurfFile

/-- Writing a file replaces an earlier one of the same name. -/
def Disk.write (d : Disk) (k : Kind) (mk : ℤ) (f : SurfFile) : Disk := fun k' mk' => if k' = k ∧ mk' = mk then some f else d k' mk'

/-- `exportSurfaceData` on a single process, src/spatial/aoutput.cpp:181-298. -/
noncomputable def exportSurface (g : Gas) (aoa : ℝ) (m : Mesh) (s : FState) (u : ℕ → St) (grad : ℕ → Gr) (walls others : List ℤ) : Option Disk :=
  (walls.foldlM (fun d mk => (wallFile g aoa m s u grad mk).map (Disk.write d .wall mk)) fun _ _ => none).bind fun d =>
    others.foldlM (fun d mk => (otherFile m s u mk).map (Disk.write d .other mk)) d

/-- Row of the volume file: `x y rho u v p T M`, src/spatial/aoutput.cpp:158-172. -/
noncomputable def volumeRow (g : Gas) (m : Mesh) (u : St) (i : ℕ) : Fin 8 → ℝ :=
  ![(forLt (m.nnode i) 0 fun j s => s + m.coords (m.inpoel i j) 0) / (m.nnode i : ℝ),
    (forLt (m.nnode i) 0 fun j s => s + m.coords (m.inpoel i j) 1) / (m.nnode i : ℝ),
    u 0, u 1 / u 0, u 2 / u 0, g.pressure u, g.temperatureC u,
    √(u 1 / u 0 * u 1 / u 0 + u 2 / u 0 * u 2 / u 0) / g.soundSpeedC u]

/-- `exportVolumeData`, src/spatial/aoutput.cpp:150-176. -/
noncomputable def exportVolume (g : Gas) (m : Mesh) (u : ℕ → St) : List (Fin 8 → ℝ) :=
  forLt m.nelem [] fun i out => out ++ [volumeRow g m (u i) i]

/-- Row of `postprocess_cell`: the arrays `scalars` (density, Mach number, pressure) and `velocities`, src/spatial/aoutput.cpp:77-89. -/
noncomputable def cellRow (g : Gas) (u : St) : (Fin 3 → ℝ) × V2 :=
  let v : V2 := ![u 1 / u 0, u 2 / u 0]
  (![u 0, √(v 0 ^ 2 + v 1 ^ 2) / g.soundSpeedC u, g.pressure u], v)

/-! ### Specification -/

/-- The boundary faces with a marker, in the order of the mesh file. -/
def facesWith (m : Mesh) (mk : ℤ) : List ℕ := (List.range m.nbface).filter fun k => (m.btag k 0 : ℤ) = mk

/-- The cell behind a boundary face. -/
def Behind (m : Mesh) (k e : ℕ) : Prop := ∀ i, HasBoth m (m.bface k 0) (m.bface k 1) i ↔ i = e

/-- The boundary face as the cell's side of the wall. -/
noncomputable def sideOf (m : Mesh) (u : ℕ → St) (grad : ℕ → Gr) (k e : ℕ) : WallFace where
  tag := m.btag k 0
  n := fNrm (m.coords (m.bface k 0)) (m.coords (m.bface k 1))
  len := fLen (m.coords (m.bface k 0)) (m.coords (m.bface k 1))
  u := u e
  grad := grad e

/-- Position of a row: half way between the end points of the face. -/
def AtFace (m : Mesh) (k : ℕ) (r : Fin 4 → ℝ) : Prop :=
  2 * r 0 = m.coords (m.bface k 0) 0 + m.coords (m.bface k 1) 0 ∧ 2 * r 1 = m.coords (m.bface k 0) 1 + m.coords (m.bface k 1) 1

/-- What a row of a wall file should hold: position, pressure coefficient, and twice the viscous force of the fluid
on the body per area along the tangent `k × n` (`n` out of the flow domain). -/
def IsWallRow (g : Gas) (m : Mesh) (u : ℕ → St) (grad : ℕ → Gr) (k : ℕ) (r : Fin 4 → ℝ) : Prop :=
  AtFace m k r ∧ ∃ e, Behind m k e ∧ e < m.nelem ∧ r 2 = 2 * (g.pressure (u e) - 1 / (g.g * g.Minf ^ 2)) ∧
    (u e 0 ≠ 0 → r 3 = 2 * (traction (g.viscosityC (u e)) (sideOf m u grad k e) 1 * (sideOf m u grad k e).n 0 -
      traction (g.viscosityC (u e)) (sideOf m u grad k e) 0 * (sideOf m u grad k e).n 1))

/-- What a row of another boundary's file should hold: position and velocity of the cell. -/
def IsOtherRow (m : Mesh) (u : ℕ → St) (k : ℕ) (r : Fin 4 → ℝ) : Prop :=
  AtFace m k r ∧ ∃ e, Behind m k e ∧ e < m.nelem ∧ (u e 0 ≠ 0 → r 2 * u e 0 = u e 1 ∧ r 3 * u e 0 = u e 2)

/-! ### Loops -/

theorem countFaces_eq (m : Mesh) (mk : ℤ) (hb : m.nbtag ≠ 0) : countFaces m mk = some (facesWith m mk).length := by
  unfold countFaces facesWith
  induction m.nbface with
  | zero => rfl
  | succ n ih =>
    rw [List.range_succ, List.foldlM_append, ih, List.filter_append]
    by_cases h : (m.btag n 0 : ℤ) = mk <;> simp [marker0, hb, h]

theorem collect_eq (m : Mesh) (mk : ℤ) (hb : m.nbtag ≠ 0) {row : ℕ → Option (Fin 4 → ℝ)} {r : ℕ → Fin 4 → ℝ}
    (hr : ∀ k, k < m.nbface → row k = some (r k)) {cap : ℕ} (hc : (facesWith m mk).length ≤ cap) :
    collect m mk cap row = some ((facesWith m mk).map r) := by
  revert hc
  unfold collect facesWith
  revert hr
  induction m.nbface with
  | zero => intro _ _; rfl
  | succ n ih =>
    intro hr hc
    rw [List.range_succ, List.filter_append] at hc
    rw [List.range_succ, List.foldlM_append, ih (fun k hk => hr k (by omega)) (by rw [List.length_append] at hc; omega), List.filter_append]
    by_cases h : (m.btag n 0 : ℤ) = mk
    · have hl : ((List.range n).filter fun k => decide ((m.btag k 0 : ℤ) = mk)).length < cap := by
        simp [h] at hc
        omega
      simp [marker0, hb, h, hl, hr n (by omega)]
    · simp [marker0, hb, h]

theorem forLt_append {α : Type*} (n : ℕ) (f : ℕ → α) : forLt n ([] : List α) (fun i out => out ++ [f i]) = (List.range n).map f := by
  induction n with
  | zero => rfl
  | succ n ih => rw [forLt_succ, ih, List.range_succ, List.map_append]; rfl

/-- The files of a conforming list of faces. -/
theorem files_eq {m : Mesh} {r : ℕ → Fin 4 → ℝ} {row : ℕ → Option (Fin 4 → ℝ)} (mk : ℤ) (hb : m.nbtag ≠ 0)
    (hr : ∀ k, k < m.nbface → row k = some (r k)) (t : Option (ℝ × ℝ × ℝ)) :
    ((countFaces m mk).bind fun cap => (collect m mk cap row).bind fun out => (printed cap out).map fun rows => (⟨rows, t⟩ : SurfFile)) =
      some ⟨(facesWith m mk).map r, t⟩ := by
  rw [countFaces_eq m mk hb, Option.bind_some, collect_eq m mk hb hr le_rfl, Option.bind_some, printed, if_pos (by simp)]
  rfl

/-- The face of the list at a boundary face. -/
theorem bface_entry {m : Mesh} (hm : Conforming m) {s : FState} (hs : topological m = .ok s) {k : ℕ} (hk : k < m.nbface) :
    ∃ F, s.faces[k]? = some F ∧ Behind m k F.left ∧ F.left < m.nelem ∧ F.n0 = m.bface k 0 ∧ F.n1 = m.bface k 1 := by
  obtain ⟨e, he, hf⟩ := (C27_ranges hm.lin hm.bfOk hs).2.1 k hk
  refine ⟨_, hf, he, ?_, rfl, rfl⟩
  exact (((he e).2 rfl).1).1

theorem entry_wall (g : Gas) {m : Mesh} (u : ℕ → St) (grad : ℕ → Gr) {k : ℕ} {F : Face} (hB : Behind m k F.left) (hl : F.left < m.nelem)
    (h0 : F.n0 = m.bface k 0) (h1 : F.n1 = m.bface k 1) : IsWallRow g m u grad k (wallRow g m u grad k F) := by
  refine ⟨⟨?_, ?_⟩, F.left, hB, hl, ?_, ?_⟩
  · simp [wallRow, faceMid, h0, h1]; ring
  · simp [wallRow, faceMid, h0, h1]; ring
  · simp [wallRow, wallFace, cp, Gas.freestreamPressure]; ring_nf
  · intro hr
    have hw : wallFace m u grad k F = sideOf m u grad k F.left := by simp only [wallFace, sideOf, h0, h1]
    have h3 : wallRow g m u grad k F 3 = cf g (wallFace m u grad k F) := rfl
    rw [h3, hw]
    have hu : (sideOf m u grad k F.left).u = u F.left := rfl
    generalize hW : sideOf m u grad k F.left = W at hu ⊢
    have hr' : W.u 0 ≠ 0 := by rw [hu]; exact hr
    have hg : ∀ i j, gradu W i j = velGrad W i j := by
      intro i j
      simp only [gradu, velGrad]
      field_simp
    rw [← hu]
    simp only [cf, shearForce, dot, tang, traction, stress, hg, Matrix.cons_val_zero, Matrix.cons_val_one]
    simp
    ring

theorem entry_other {m : Mesh} (u : ℕ → St) {k : ℕ} {F : Face} (hB : Behind m k F.left) (hl : F.left < m.nelem)
    (h0 : F.n0 = m.bface k 0) (h1 : F.n1 = m.bface k 1) : IsOtherRow m u k (otherRow m u F) := by
  refine ⟨⟨?_, ?_⟩, F.left, hB, hl, fun hr => ⟨?_, ?_⟩⟩
  · simp [otherRow, faceMid, h0, h1]; ring
  · simp [otherRow, faceMid, h0, h1]; ring
  · simp [otherRow]; field_simp
  · simp [otherRow]; field_simp

theorem forall2_map {α : Type*} {P : ℕ → α → Prop} {l : List ℕ} {r : ℕ → α} (h : ∀ k ∈ l, P k (r k)) : List.Forall₂ P l (l.map r) := by
  induction l with
  | nil => exact .nil
  | cons a l ih => exact .cons (h a (by simp)) (ih fun k hk => h k (by simp [hk]))

/-- A wall file on a mesh with tags. -/
theorem wallFile_spec (g : Gas) (aoa : ℝ) {m : Mesh} (hm : Conforming m) (hb : m.nbtag ≠ 0) {s : FState} (hs : topological m = .ok s) (u : ℕ → St)
    (grad : ℕ → Gr) (mk : ℤ) : ∃ f, wallFile g aoa m s u grad mk = some f ∧ List.Forall₂ (IsWallRow g m u grad) (facesWith m mk) f.rows ∧
      f.trailer = coefficients g aoa mk [wallFaces m s u grad] := by
  have : Nonempty Face := ⟨⟨0, 0, 0, 0⟩⟩
  choose! F hF using fun k (hk : k < m.nbface) => bface_entry hm hs hk
  refine ⟨_, files_eq (r := fun k => wallRow g m u grad k (F k)) mk hb (fun k hk => by rw [(hF k hk).1]; rfl) _, ?_, rfl⟩
  refine forall2_map fun k hk => ?_
  simp only [facesWith, List.mem_filter, List.mem_range] at hk
  exact entry_wall g u grad (hF k hk.1).2.1 (hF k hk.1).2.2.1 (hF k hk.1).2.2.2.1 (hF k hk.1).2.2.2.2

theorem otherFile_spec {m : Mesh} (hm : Conforming m) (hb : m.nbtag ≠ 0) {s : FState} (hs : topological m = .ok s) (u : ℕ → St)
    (mk : ℤ) : ∃ f, otherFile m s u mk = some f ∧ List.Forall₂ (IsOtherRow m u) (facesWith m mk) f.rows ∧ f.trailer = none := by
  have : Nonempty Face := ⟨⟨0, 0, 0, 0⟩⟩
  choose! F hF using fun k (hk : k < m.nbface) => bface_entry hm hs hk
  refine ⟨_, files_eq (r := fun k => otherRow m u (F k)) mk hb (fun k hk => by rw [(hF k hk).1]; rfl) _, ?_, rfl⟩
  refine forall2_map fun k hk => ?_
  simp only [facesWith, List.mem_filter, List.mem_range] at hk
  exact entry_other u (hF k hk.1).2.1 (hF k hk.1).2.2.1 (hF k hk.1).2.2.2.1 (hF k hk.1).2.2.2.2

theorem writes_eq {k : Kind} {file : ℤ → Option SurfFile} {f : ℤ → SurfFile} (h : ∀ mk, file mk = some (f mk)) (l : List ℤ) (d : Disk) :
    l.foldlM (fun d mk => (file mk).map (Disk.write d k mk)) d = some fun k' mk => if k' = k ∧ mk ∈ l then some (f mk) else d k' mk := by
  induction l generalizing d with
  | nil => simp
  | cons a l ih =>
    rw [List.foldlM_cons, h a]
    simp only [Option.map_some, Option.bind_eq_bind, Option.bind_some]
    rw [ih]
    congr 1
    funext k' mk
    unfold Disk.write
    by_cases hk : k' = k <;> by_cases hl : mk ∈ l <;> by_cases ha : mk = a <;> simp [hk, hl, ha]

/-! ### C91 -/

/-- C91, surface files: on a conforming mesh whose boundary faces carry markers no buffer is overrun and nothing uninitialised is printed. There
is a file for each listed wall and each listed other boundary, and no further one. A file has one row for each boundary face with its
marker, in the order of the mesh file: the midpoint, and pressure and friction coefficient, respectively velocity, of the cell behind the
face. -/
theorem C91_surface_files (g : Gas) (aoa : ℝ) {m : Mesh} (hm : Conforming m) (hb : m.nbtag ≠ 0) {s : FState} (hs : topological m = .ok s)
    (u : ℕ → St) (grad : ℕ → Gr) (walls others : List ℤ) :
    ∃ d, exportSurface g aoa m s u grad walls others = some d ∧
      (∀ mk, (d .wall mk).isSome ↔ mk ∈ walls) ∧ (∀ mk, (d .other mk).isSome ↔ mk ∈ others) ∧
      (∀ mk f, d .wall mk = some f → List.Forall₂ (IsWallRow g m u grad) (facesWith m mk) f.rows ∧
        f.trailer = coefficients g aoa mk [wallFaces m s u grad]) ∧
      ∀ mk f, d .other mk = some f → List.Forall₂ (IsOtherRow m u) (facesWith m mk) f.rows := by
  choose fw hw1 hw2 hw3 using fun mk => wallFile_spec g aoa hm hb hs u grad mk
  choose fo ho1 ho2 _ using fun mk => otherFile_spec hm hb hs u mk
  refine ⟨fun k' mk => if k' = .other ∧ mk ∈ others then some (fo mk) else if k' = .wall ∧ mk ∈ walls then some (fw mk) else none, ?_, ?_⟩
  · unfold exportSurface
    rw [writes_eq hw1, Option.bind_some, writes_eq ho1]
  · refine ⟨fun mk => ?_, fun mk => ?_, fun mk f hf => ?_, fun mk f hf => ?_⟩
    · by_cases h : mk ∈ walls <;> simp [h]
    · by_cases h : mk ∈ others <;> simp [h]
    · by_cases h : mk ∈ walls
      · simp [h] at hf; subst hf; exact ⟨hw2 mk, hw3 mk⟩
      · simp [h] at hf
    · by_cases h : mk ∈ others
      · simp [h] at hf; subst hf; exact ho2 mk
      · simp [h] at hf

theorem countFaces_none {m : Mesh} (hb : m.nbtag = 0) (hf : 0 < m.nbface) (mk : ℤ) : countFaces m mk = none := by
  obtain ⟨n, hn⟩ := Nat.exists_eq_succ_of_ne_zero hf.ne'
  unfold countFaces
  rw [hn, List.range_succ_eq_map, List.foldlM_cons]
  simp [marker0, hb]

/-- C91: on a conforming mesh with boundary faces the function is defined exactly if the faces carry markers or no file is asked for. -/
theorem C91_defined_iff (g : Gas) (aoa : ℝ) {m : Mesh} (hm : Conforming m) (hf : 0 < m.nbface) {s : FState} (hs : topological m = .ok s)
    (u : ℕ → St) (grad : ℕ → Gr) (walls others : List ℤ) :
    (exportSurface g aoa m s u grad walls others).isSome ↔ 0 < m.nbtag ∨ (walls = [] ∧ others = []) := by
  by_cases hb : m.nbtag = 0
  · cases walls with
    | cons a l => simp [exportSurface, wallFile, countFaces_none hb hf, hb]
    | nil =>
      cases others with
      | cons a l => simp [exportSurface, otherFile, countFaces_none hb hf, hb]
      | nil => simp [exportSurface]
  · obtain ⟨d, hd, -⟩ := C91_surface_files g aoa hm hb hs u grad walls others
    rw [hd]
    simp [Nat.pos_of_ne_zero hb]

/-- C91: the last line of a wall file is undefined (`0/0`) exactly if no boundary face has the marker. -/
theorem C91_trailer_iff (g : Gas) (aoa : ℝ) {m : Mesh} (hm : Conforming m) (hz : NoZeroFace m) {s : FState} (hs : topological m = .ok s)
    (u : ℕ → St) (grad : ℕ → Gr) (mk : ℤ) :
    coefficients g aoa mk [wallFaces m s u grad] = none ↔ facesWith m mk = [] := by
  have : Nonempty Face := ⟨⟨0, 0, 0, 0⟩⟩
  choose! F hF using fun k (hk : k < m.nbface) => bface_entry hm hs hk
  have hw : wallFaces m s u grad = (List.range m.nbface).map fun k => wallFace m u grad k (F k) := by
    unfold wallFaces
    rw [← List.filterMap_eq_map]
    refine List.filterMap_congr fun k hk => ?_
    rw [(hF k (List.mem_range.1 hk)).1]
    rfl
  have hl : wall mk [wallFaces m s u grad] = (facesWith m mk).map fun k => wallFace m u grad k (F k) := by
    rw [hw, wall, facesWith]
    simp only [List.flatten_cons, List.flatten_nil, List.append_nil, List.filter_map]
    rfl
  have hpos : ∀ k ∈ facesWith m mk, 0 < (wallFace m u grad k (F k)).len := by
    intro k hk
    have hk : k < m.nbface := by simp only [facesWith, List.mem_filter, List.mem_range] at hk; exact hk.1
    obtain ⟨x, hx, h0, h1⟩ := hm.bf k hk
    refine fLen_pos ?_
    rw [(hF k hk).2.2.2.1, (hF k hk).2.2.2.2, h0, h1]
    exact hz x hx
  have hA : wallLen (wall mk [wallFaces m s u grad]) = 0 ↔ facesWith m mk = [] := by
    rw [hl, wallLen, List.map_map]
    constructor
    · intro h
      cases hc : facesWith m mk with
      | nil => rfl
      | cons a l =>
        exfalso
        rw [hc] at h hpos
        have h1 := hpos a (by simp)
        have h2 : 0 ≤ (l.map ((fun F => F.len) ∘ fun k => wallFace m u grad k (F k))).sum :=
          List.sum_nonneg (by
            intro x hx
            obtain ⟨k, hk, rfl⟩ := List.mem_map.1 hx
            exact (hpos k (by simp [hk])).le)
        rw [List.map_cons, List.sum_cons] at h
        simp only [Function.comp] at h h2
        linarith
    · intro h; rw [h]; rfl
  rw [coefficients_eq]
  split_ifs with h
  · simpa using hA.1 h
  · simpa using fun h' => h (hA.2 h')

/-- C91, volume file: one row per cell in order. From density, velocity and pressure of the row the conversion gives back the state of the
cell; the position is the centre used by the scheme, and temperature and Mach number are those of density, velocity and pressure. -/
theorem C91_volume_file (g : Gas) (hg : g.g ≠ 1) (m : Mesh) (u : ℕ → St) (hr : ∀ i, i < m.nelem → u i 0 ≠ 0) :
    (exportVolume g m u).length = m.nelem ∧ ∀ i r, (exportVolume g m u)[i]? = some r →
      ![r 0, r 1] = centre m i ∧ g.consOfPrim ![r 2, r 3, r 4, r 5] = u i ∧ r 6 = g.temperature (r 2) (r 5) ∧
      r 7 = √(r 3 ^ 2 + r 4 ^ 2) / √(g.g * r 5 / r 2) := by
  unfold exportVolume
  rw [forLt_append]
  refine ⟨by simp, fun i r h => ?_⟩
  rw [List.getElem?_map, Option.map_eq_some_iff] at h
  obtain ⟨j, hj, rfl⟩ := h
  obtain ⟨hi, e⟩ := List.getElem?_eq_some_iff.1 hj
  obtain rfl : i = j := by rw [← e, List.getElem_range]
  have h0 := hr i (by simpa using hi)
  refine ⟨?_, ?_, rfl, ?_⟩
  · funext d; fin_cases d <;> rfl
  · exact C01_cons_prim_cons g hg (u i) h0
  · show √(u i 1 / u i 0 * u i 1 / u i 0 + u i 2 / u i 0 * u i 2 / u i 0) / g.soundSpeedC (u i) =
      √((u i 1 / u i 0) ^ 2 + (u i 2 / u i 0) ^ 2) / √(g.g * g.pressure (u i) / u i 0)
    rw [show u i 1 / u i 0 * u i 1 / u i 0 + u i 2 / u i 0 * u i 2 / u i 0 = (u i 1 / u i 0) ^ 2 + (u i 2 / u i 0) ^ 2 by ring]
    rfl

/-- C91: two states with the same row in the volume file are equal. -/
theorem C91_volume_injective (g : Gas) (hg : g.g ≠ 1) (m : Mesh) {u v : ℕ → St} (hu : ∀ i, i < m.nelem → u i 0 ≠ 0)
    (hv : ∀ i, i < m.nelem → v i 0 ≠ 0) (h : exportVolume g m u = exportVolume g m v) {i : ℕ} (hi : i < m.nelem) : u i = v i := by
  obtain ⟨hl, hr⟩ := C91_volume_file g hg m u hu
  obtain ⟨_, hr'⟩ := C91_volume_file g hg m v hv
  have hs : (exportVolume g m u)[i]? = some (exportVolume g m u)[i] := List.getElem?_eq_getElem (by omega)
  rw [← (hr i _ hs).2.1, (hr' i _ (h ▸ hs)).2.1]

/-- C91, `postprocess_cell`: density, Mach number, pressure and velocity are those of the volume file, and determine the state. -/
theorem C91_cell_arrays (g : Gas) (hg : g.g ≠ 1) (m : Mesh) (u : St) (hr : u 0 ≠ 0) (i : ℕ) :
    (cellRow g u).1 = ![volumeRow g m u i 2, volumeRow g m u i 7, volumeRow g m u i 5] ∧
    (cellRow g u).2 = ![volumeRow g m u i 3, volumeRow g m u i 4] ∧
    g.consOfPrim ![(cellRow g u).1 0, (cellRow g u).2 0, (cellRow g u).2 1, (cellRow g u).1 2] = u := by
  refine ⟨?_, rfl, C01_cons_prim_cons g hg u hr⟩
  funext d
  fin_cases d
  · rfl
  · show √((u 1 / u 0) ^ 2 + (u 2 / u 0) ^ 2) / g.soundSpeedC u = √(u 1 / u 0 * u 1 / u 0 + u 2 / u 0 * u 2 / u 0) / g.soundSpeedC u
    congr 2; ring
  · rfl

/-- C91: cell output and nodal output (`postprocess_point`) agree on the values derived from a state. -/
theorem C91_cell_nodal (g : Gas) (u : St) : (cellRow g u).1 = ![(rowOf g u).density, (rowOf g u).mach, (rowOf g u).pressure] ∧
    (cellRow g u).2 = (rowOf g u).velocity := by
  refine ⟨?_, rfl⟩
  funext d
  fin_cases d
  · rfl
  · show √((u 1 / u 0) ^ 2 + (u 2 / u 0) ^ 2) / g.soundSpeedC u = √(dot ![u 1 / u 0, u 2 / u 0] ![u 1 / u 0, u 2 / u 0]) / g.soundSpeedC u
    congr 2; simp [dot]; ring
  · rfl

/-! ### The square cut by its diagonals -/

/-- All boundary faces of the square have marker 1: the wall file of marker 1 has four rows, that of marker 2 none and an undefined last line. -/
example (g : Gas) (u : ℕ → St) (grad : ℕ → Gr) : ∃ s d f f', topological FV.Geo.cross = .ok s ∧
    exportSurface g 0 FV.Geo.cross s u grad [1, 2] [1] = some d ∧ d .wall 1 = some f ∧ f.rows.length = 4 ∧ f.trailer ≠ none ∧
    d .wall 2 = some f' ∧ f'.rows = [] ∧ f'.trailer = none ∧ d .other 2 = none := by
  obtain ⟨s, hs, _⟩ := FV.Geo.cross_topological
  obtain ⟨d, hd, hw, ho, hf, _⟩ := C91_surface_files g 0 Par.cross_conforming (by decide) hs u grad [1, 2] [1]
  obtain ⟨f, h1⟩ := Option.isSome_iff_exists.1 ((hw 1).2 (by simp))
  obtain ⟨f', h2⟩ := Option.isSome_iff_exists.1 ((hw 2).2 (by simp))
  have e1 : facesWith FV.Geo.cross 1 = [0, 1, 2, 3] := by decide +kernel
  have e2 : facesWith FV.Geo.cross 2 = [] := by decide +kernel
  refine ⟨s, d, f, f', hs, hd, h1, ?_, ?_, h2, ?_, ?_, ?_⟩
  · have := (hf 1 f h1).1.length_eq; rw [e1] at this; exact this.symm
  · rw [(hf 1 f h1).2]
    intro h
    have := (C91_trailer_iff g 0 Par.cross_conforming FV.Geo.cross_nozero hs u grad 1).1 h
    rw [e1] at this; simp at this
  · have := (hf 2 f' h2).1; rw [e2] at this; exact List.forall₂_nil_left_iff.1 this
  · rw [(hf 2 f' h2).2]
    exact (C91_trailer_iff g 0 Par.cross_conforming FV.Geo.cross_nozero hs u grad 2).2 e2
  · have := (ho 2).not.2 (by simp); simpa using this

/-- Air at rest in all cells meets the hypotheses on the volume file. -/
example : air.g ≠ 1 ∧ ∀ i, i < FV.Geo.cross.nelem → (fun _ : ℕ => (![1, 0, 0, 2] : St)) i 0 ≠ 0 := by
  refine ⟨by norm_num [air], fun i _ => by simp⟩

end Out
end FVENS
