import Verif.Mesh.Gmsh
import Verif.BC.Model

/-!
# SU2 mesh files (C84)

A file is a list of tokens: numbers, words, the sign `=` and line ends. As for Gmsh files the text form of numbers is not modelled. A word is a token that
does not begin like a number; keywords such as `NELEM` are words.
-/

namespace FVENS
namespace Msh
namespace Su2

open BC (Res)

/-- A token of an SU2 file. -/
inductive STok where
  | int (z : ℤ)
  | real (x : ℝ)
  | word (s : String)
  | eq
  | nl

/-- Readers: a value and the rest of the file. `ub`: an extraction failed; what the code computes from then on does not come from the file. -/
abbrev Rd (α : Type) := List STok → Res (α × List STok)

/-- Readers in sequence. -/
def Rd.bind {α β : Type} (p : Rd α) (f : α → Rd β) : Rd β := fun s =>
  match p s with
  | .ok (a, r) => f a r
  | .throws => .throws
  | .ub => .ub

/-- Reads nothing. -/
def Rd.ret {α : Type} (a : α) : Rd α := fun s => .ok (a, s)

/-- `fin >> (int)`: skips line ends; the integer part read from a real number is not modelled, `ub`. -/
def int : Rd ℤ
  | .nl :: r => int r
  | .int z :: r => .ok (z, r)
  | _ => .ub

/-- `fin >> (double)`. -/
def real : Rd ℝ
  | .nl :: r => real r
  | .int z :: r => .ok ((z : ℝ), r)
  | .real x :: r => .ok (x, r)
  | _ => .ub

/-- `std::getline(fin, dum, '=')`: everything through the next `=`. -/
def skipEq : Rd Unit
  | .eq :: r => .ok ((), r)
  | _ :: r => skipEq r
  | [] => .ub

/-- `std::getline(fin, dum)`: the rest of the line. It fails at the end of the file. -/
def line : Rd (List STok)
  | [] => .ub
  | .nl :: r => .ok ([], r)
  | t :: r =>
    match r with
    | [] => .ok ([t], [])
    | _ :: _ =>
      match line r with
      | .ok (l, r') => .ok (t :: l, r')
      | .throws => .throws
      | .ub => .ub

/-- `std::stoi(dum)`: throws unless the text begins with a number; of a real number it takes the integer part (not modelled, `ub`). -/
def stoi : List STok → Res ℤ
  | .int z :: _ => .ok z
  | .real _ :: _ => .ub
  | _ => .throws

/-- A number after `=`, for instance src/mesh/meshreaders.cpp:275-276. -/
def header : Rd ℤ := skipEq.bind fun _ => line.bind fun l s =>
  match stoi l with
  | .ok z => .ok (z, s)
  | .throws => .throws
  | .ub => .ub

/-- A number after `=` used as a size. A negative one makes `resize` throw, or for counters of loops is taken as zero; not modelled, `ub`. -/
def size : Rd ℕ := header.bind fun z s => if 0 ≤ z then .ok (z.toNat, s) else .ub

/-- A counted loop. -/
def many {α : Type} (p : Rd α) : ℕ → Rd (List α)
  | 0 => Rd.ret []
  | n + 1 => p.bind fun a => (many p n).bind fun l => Rd.ret (a :: l)

/-- Number of nodes (and faces) by element type, src/mesh/meshreaders.cpp:297-309. Unknown types leave the value zero the vector was filled with. -/
def nodesOf (t : ℤ) : ℕ := if t = 5 then 3 else if t = 9 then 4 else 0

/-- One pass of the loop over elements, src/mesh/meshreaders.cpp:292-314: the nodes. -/
def cell : Rd (List ℤ) := int.bind fun t => (many int (nodesOf t)).bind fun l => int.bind fun _ => Rd.ret l

/-- One pass of the loop over points, src/mesh/meshreaders.cpp:325-331. -/
def point : Rd (Fin 2 → ℝ) := real.bind fun x => real.bind fun y => int.bind fun _ => Rd.ret ![x, y]

/-- One boundary face, src/mesh/meshreaders.cpp:363-369. -/
def edge2 : Rd (ℤ × ℤ) := int.bind fun _ => int.bind fun a => int.bind fun b => Rd.ret (a, b)

/-- One marker, src/mesh/meshreaders.cpp:353-369: tag and faces. -/
def marker : Rd (ℤ × List (ℤ × ℤ)) := header.bind fun t => size.bind fun n => (many edge2 n).bind fun l => Rd.ret (t, l)

/-- The loop over markers, src/mesh/meshreaders.cpp:351-374: the rest of a line is dropped after each but the last. -/
def markers : ℕ → Rd (List (ℤ × List (ℤ × ℤ)))
  | 0 => Rd.ret []
  | 1 => marker.bind fun a => Rd.ret [a]
  | n + 2 => marker.bind fun a => line.bind fun _ => (markers (n + 1)).bind fun l => Rd.ret (a :: l)

/-- What is read: nodes of the cells, points, and for each boundary face its nodes and its tag (`m.bface`, src/mesh/meshreaders.cpp:380-393). -/
structure SData where
  cells : List (List ℤ)
  points : List (Fin 2 → ℝ)
  bfaces : List ((ℤ × ℤ) × ℤ)

/-- Boundary faces of all markers in order with the tag of their marker, src/mesh/meshreaders.cpp:382-393. -/
def flatten (ms : List (ℤ × List (ℤ × ℤ))) : List ((ℤ × ℤ) × ℤ) := ms.flatMap fun m => m.2.map fun f => (f, m.1)

/-- `readSU2`, src/mesh/meshreaders.cpp:267-396. The dimension is only printed if wrong. Without markers `m.nnofa` is used unset (380): `ub`. -/
def readSU2 (file : List STok) : Res SData :=
  match (header.bind fun _ => size.bind fun ne => (many cell ne).bind fun cs => line.bind fun _ => size.bind fun np => (many point np).bind fun ps =>
    line.bind fun _ => size.bind fun nm => if nm = 0 then fun _ => .ub else (markers nm).bind fun ms => Rd.ret (SData.mk cs ps (flatten ms))) file with
  | .ok (d, _) => .ok d
  | .throws => .throws
  | .ub => .ub

/-! ### Specification: files -/

/-- A description of a two-dimensional mesh as SU2 files give it. -/
structure Desc where
  cells : List (List ℤ)
  points : List (ℝ × ℝ)
  markers : List (ℤ × List (ℤ × ℤ))

/-- Text before and after the number of a header: anything without `=` before (comments, keyword), anything on the same line after. -/
structure Deco where
  before : List STok
  after : List STok

def Deco.Ok (d : Deco) : Prop := STok.eq ∉ d.before ∧ STok.nl ∉ d.after

def headerText (d : Deco) (z : ℤ) : List STok := d.before ++ .eq :: .int z :: d.after ++ [.nl]

/-- SU2 type of a cell: 5 triangle, 9 quadrilateral. -/
def typeOf (l : List ℤ) : ℤ := if l.length = 3 then 5 else 9

def cellText (l : List ℤ) (id : ℤ) : List STok := .int (typeOf l) :: l.map .int ++ [.int id, .nl]

def pointText (p : ℝ × ℝ) (id : ℤ) : List STok := [.real p.1, .real p.2, .int id, .nl]

def edgeText (f : ℤ × ℤ) : List STok := [.int 3, .int f.1, .int f.2, .nl]

/-- Decorations of the headers of a file. -/
structure Layout where
  ndime : Deco
  nelem : Deco
  npoin : Deco
  nmark : Deco
  tag : ℕ → Deco
  elems : ℕ → Deco

structure Layout.Ok (L : Layout) : Prop where
  ndime : L.ndime.Ok
  nelem : L.nelem.Ok
  npoin : L.npoin.Ok
  nmark : L.nmark.Ok
  tag : ∀ i, (L.tag i).Ok
  elems : ∀ i, (L.elems i).Ok

def markerText (L : Layout) (i : ℕ) (m : ℤ × List (ℤ × ℤ)) : List STok :=
  headerText (L.tag i) m.1 ++ headerText (L.elems i) m.2.length ++ m.2.flatMap edgeText

def markersText (L : Layout) : ℕ → List (ℤ × List (ℤ × ℤ)) → List STok
  | _, [] => []
  | i, m :: r => markerText L i m ++ markersText L (i + 1) r

/-- The file of a description; cells and points carry their numbers. -/
def Desc.file (D : Desc) (L : Layout) (dim : ℤ) (rest : List STok) : List STok :=
  headerText L.ndime dim ++ headerText L.nelem D.cells.length ++ D.cells.zipIdx.flatMap (fun c => cellText c.1 c.2) ++
    (headerText L.npoin D.points.length ++ D.points.zipIdx.flatMap (fun p => pointText p.1 p.2) ++
      (headerText L.nmark D.markers.length ++ (markersText L 0 D.markers ++ rest)))

/-- The mesh described. -/
def Desc.data (D : Desc) : SData := ⟨D.cells, D.points.map fun p => ![p.1, p.2], flatten D.markers⟩

/-! ### Proofs -/

theorem skipEq_before {l : List STok} (h : STok.eq ∉ l) (r : List STok) : skipEq (l ++ .eq :: r) = .ok ((), r) := by
  induction l with
  | nil => rfl
  | cons t l ih =>
    rw [List.cons_append]
    cases t with
    | eq => simp at h
    | _ => exact ih fun hm => h (List.mem_cons_of_mem _ hm)

theorem line_text {l : List STok} (h : STok.nl ∉ l) (r : List STok) : line (l ++ .nl :: r) = .ok (l, r) := by
  induction l with
  | nil => simp [line]
  | cons t l ih =>
    have ih := ih fun hm => h (List.mem_cons_of_mem _ hm)
    rw [List.cons_append]
    obtain ⟨a, q, e⟩ : ∃ a q, l ++ STok.nl :: r = a :: q := by
      cases l with
      | nil => exact ⟨_, _, rfl⟩
      | cons a q => exact ⟨_, _, rfl⟩
    rw [e] at ih ⊢
    cases t with
    | nl => simp at h
    | _ => rw [line, ih]; simp

theorem header_text {d : Deco} (h : d.Ok) (z : ℤ) (r : List STok) : header (headerText d z ++ r) = .ok (z, r) := by
  unfold header headerText Rd.bind
  have e : d.before ++ STok.eq :: STok.int z :: d.after ++ [.nl] ++ r = d.before ++ STok.eq :: (STok.int z :: d.after ++ .nl :: r) := by simp
  rw [e, skipEq_before h.1]
  have h2 : STok.nl ∉ STok.int z :: d.after := by simp [h.2]
  show (match line (STok.int z :: d.after ++ .nl :: r) with | _ => _) = _
  rw [line_text h2]
  rfl

theorem size_text {d : Deco} (h : d.Ok) (n : ℕ) (r : List STok) : size (headerText d n ++ r) = .ok (n, r) := by
  unfold size Rd.bind
  rw [header_text h]
  simp

theorem bind_ok {α β : Type} {p : Rd α} {f : α → Rd β} {s r : List STok} {a : α} (h : p s = .ok (a, r)) : p.bind f s = f a r := by
  unfold Rd.bind; rw [h]

/-- A counted loop over lines leaves the last line end behind, if there was a line. -/
theorem many_lines {α β : Type} {p : Rd α} {ser : β → List STok} {val : β → α} (h0 : ∀ s, p (.nl :: s) = p s) {l : List β}
    (h : ∀ b ∈ l, ∀ r, p (ser b ++ .nl :: r) = .ok (val b, .nl :: r)) (r : List STok) :
    many p l.length (l.flatMap (fun b => ser b ++ [.nl]) ++ r) = .ok (l.map val, if l = [] then r else .nl :: r) := by
  have key : ∀ (l : List β), (∀ b ∈ l, ∀ r, p (ser b ++ .nl :: r) = .ok (val b, .nl :: r)) →
      many p l.length (.nl :: (l.flatMap (fun b => ser b ++ [.nl]) ++ r)) = .ok (l.map val, .nl :: r) := by
    intro l
    induction l with
    | nil => intro _; rfl
    | cons b l ih =>
      intro h
      rw [List.length_cons, many, List.flatMap_cons, List.append_assoc, List.append_assoc, List.singleton_append]
      rw [bind_ok ((h0 _).trans (h b (by simp) _)), bind_ok (ih fun b hb => h b (by simp [hb]))]
      rfl
  cases l with
  | nil => rfl
  | cons b l =>
    rw [List.length_cons, many, List.flatMap_cons, List.append_assoc, List.append_assoc, List.singleton_append, if_neg (by simp)]
    rw [bind_ok (h b (by simp) _), bind_ok (key l fun b hb => h b (by simp [hb]))]
    rfl

theorem many_ints (l : List ℤ) (r : List STok) : many int l.length (l.map .int ++ r) = .ok (l, r) := by
  induction l with
  | nil => rfl
  | cons z l ih =>
    rw [List.length_cons, many, List.map_cons, List.cons_append, bind_ok (show int (STok.int z :: _) = _ from rfl), bind_ok ih]
    rfl

theorem cell_text {l : List ℤ} (h : l.length = 3 ∨ l.length = 4) (id : ℤ) (r : List STok) :
    cell ((.int (typeOf l) :: l.map .int ++ [.int id]) ++ .nl :: r) = .ok (l, .nl :: r) := by
  have hn : nodesOf (typeOf l) = l.length := by
    rcases h with h | h <;> simp [typeOf, nodesOf, h]
  unfold cell
  rw [List.cons_append, List.cons_append, bind_ok (show int (STok.int _ :: _) = _ from rfl), hn, List.append_assoc, bind_ok (many_ints l _)]
  rfl

theorem bind_nl {α β : Type} {p : Rd α} (h : ∀ s, p (.nl :: s) = p s) (f : α → Rd β) (s : List STok) : p.bind f (.nl :: s) = p.bind f s := by
  unfold Rd.bind; rw [h]

theorem int_nl (s : List STok) : int (.nl :: s) = int s := by rw [int]

theorem real_nl (s : List STok) : real (.nl :: s) = real s := by rw [real]

/-- One marker, followed by the rest of the file. -/
theorem marker_text {L : Layout} (hL : L.Ok) (i : ℕ) (m : ℤ × List (ℤ × ℤ)) (r : List STok) :
    marker (markerText L i m ++ r) = .ok (m, if m.2 = [] then r else .nl :: r) := by
  unfold marker markerText
  rw [List.append_assoc, List.append_assoc, bind_ok (header_text (hL.tag i) _ _), bind_ok (size_text (hL.elems i) _ _)]
  have h := many_lines (p := edge2) (ser := fun f : ℤ × ℤ => [.int 3, .int f.1, .int f.2]) (val := id) (fun s => bind_nl int_nl _ s) (l := m.2)
    (fun b _ r => rfl) r
  rw [bind_ok (show many edge2 m.2.length (m.2.flatMap edgeText ++ r) = _ from h)]
  simp [Rd.ret]

theorem markers_text {L : Layout} (hL : L.Ok) {ms : List (ℤ × List (ℤ × ℤ))} (h : ∀ m ∈ ms.dropLast, m.2 ≠ []) (i : ℕ) (r : List STok) :
    ∃ r', markers ms.length (markersText L i ms ++ r) = .ok (ms, r') := by
  induction ms generalizing i with
  | nil => exact ⟨_, rfl⟩
  | cons m ms ih =>
    rw [markersText, List.append_assoc]
    cases ms with
    | nil =>
      rw [List.length_singleton, markers, bind_ok (marker_text hL i m _)]
      exact ⟨_, rfl⟩
    | cons m' ms =>
      have hm : m.2 ≠ [] := h m (by simp)
      obtain ⟨r', e⟩ := ih (fun q hq => h q (by rw [List.dropLast_cons_cons]; exact List.mem_cons_of_mem _ hq)) (i + 1)
      rw [show (m' :: ms).length = ms.length + 1 from rfl] at e
      rw [show (m :: m' :: ms).length = ms.length + 2 from rfl, markers, bind_ok (marker_text hL i m _), if_neg hm,
        bind_ok (show line (STok.nl :: _) = _ by rw [line]), bind_ok e]
      exact ⟨_, rfl⟩

/-- C84 (part): every file of triangles and quadrilaterals with at least one cell, point and marker, in which only the last marker may be without faces, is read as
described, whatever comments surround the headers and whatever dimension it claims. Missing: other files are not
rejected, see `C84_empty_marker_refuted`, `C84_dimension_refuted`, `C84_type_refuted`. -/
theorem C84_read_partial (D : Desc) {L : Layout} (hL : L.Ok) (hc : D.cells ≠ []) (ht : ∀ c ∈ D.cells, c.length = 3 ∨ c.length = 4)
    (hp : D.points ≠ []) (hm : D.markers ≠ []) (he : ∀ m ∈ D.markers.dropLast, m.2 ≠ []) (dim : ℤ) (rest : List STok) :
    readSU2 (D.file L dim rest) = .ok D.data := by
  have h1 := many_lines (p := cell) (ser := fun c : List ℤ × ℕ => .int (typeOf c.1) :: c.1.map .int ++ [.int c.2]) (val := fun c => c.1)
    (fun s => bind_nl int_nl _ s) (l := D.cells.zipIdx) (fun b hb r => cell_text (ht b.1 (List.fst_mem_of_mem_zipIdx hb)) _ r)
  have h2 := many_lines (p := point) (ser := fun p : (ℝ × ℝ) × ℕ => [.real p.1.1, .real p.1.2, .int p.2]) (val := fun p => ![p.1.1, p.1.2])
    (fun s => bind_nl real_nl _ s) (l := D.points.zipIdx) (fun b hb r => rfl)
  obtain ⟨r', h3⟩ := markers_text hL he 0 rest
  have e1 : (fun c : List ℤ × ℕ => cellText c.1 c.2) = fun c => (.int (typeOf c.1) :: c.1.map .int ++ [.int c.2]) ++ [.nl] := by
    funext c; simp [cellText]
  have e2 : (fun p : (ℝ × ℝ) × ℕ => pointText p.1 p.2) = fun p => [.real p.1.1, .real p.1.2, .int p.2] ++ [.nl] := rfl
  unfold readSU2 Desc.file
  rw [List.append_assoc, List.append_assoc, bind_ok (header_text hL.ndime _ _), bind_ok (size_text hL.nelem _ _), e1, e2]
  have h1 := h1 (headerText L.npoin D.points.length ++ D.points.zipIdx.flatMap (fun p => [.real p.1.1, .real p.1.2, .int p.2] ++ [.nl]) ++
      (headerText L.nmark D.markers.length ++ (markersText L 0 D.markers ++ rest)))
  rw [List.length_zipIdx, if_neg (by simpa using hc)] at h1
  rw [bind_ok h1, bind_ok (show line (STok.nl :: _) = _ by rw [line]), List.append_assoc, bind_ok (size_text hL.npoin _ _)]
  have h2 := h2 (headerText L.nmark D.markers.length ++ (markersText L 0 D.markers ++ rest))
  rw [List.length_zipIdx, if_neg (by simpa using hp)] at h2
  rw [bind_ok h2, bind_ok (show line (STok.nl :: _) = _ by rw [line]), bind_ok (size_text hL.nmark _ _), if_neg (by simpa using hm), bind_ok h3]
  simp only [Rd.ret, Desc.data]
  congr 2
  · rw [List.zipIdx_map_fst]
  · rw [show (fun p : (ℝ × ℝ) × ℕ => ![p.1.1, p.1.2]) = (fun p : ℝ × ℝ => ![p.1, p.2]) ∘ Prod.fst from rfl, ← List.map_map, List.zipIdx_map_fst]

/-- Layout without comments. -/
def plain : Layout where
  ndime := ⟨[.word "NDIME"], []⟩
  nelem := ⟨[.word "NELEM"], []⟩
  npoin := ⟨[.word "NPOIN"], []⟩
  nmark := ⟨[.word "NMARK"], []⟩
  tag := fun _ => ⟨[.word "MARKER_TAG"], []⟩
  elems := fun _ => ⟨[.word "MARKER_ELEMS"], []⟩

theorem plain_ok : plain.Ok := by
  constructor <;> first | (intro i; constructor <;> simp [plain]) | (constructor <;> simp [plain])

/-- The unit square: two triangles, walls below and above, the sides. -/
def square : Desc where
  cells := [[0, 1, 2], [0, 2, 3]]
  points := [(0, 0), (1, 0), (1, 1), (0, 1)]
  markers := [(2, [(0, 1), (2, 3)]), (4, [(1, 2), (3, 0)])]

example : readSU2 (square.file plain 2 []) = .ok ⟨[[0, 1, 2], [0, 2, 3]], [![0, 0], ![1, 0], ![1, 1], ![0, 1]],
    [((0, 1), 2), ((2, 3), 2), ((1, 2), 4), ((3, 0), 4)]⟩ :=
  C84_read_partial square plain_ok (by simp [square]) (by simp [square]) (by simp [square]) (by simp [square]) (by simp [square]) 2 []

theorem skipEq_none {l : List STok} (h : STok.eq ∉ l) : skipEq l = .ub := by
  induction l with
  | nil => rfl
  | cons t l ih =>
    cases t with
    | eq => simp at h
    | _ => exact ih fun hm => h (List.mem_cons_of_mem _ hm)

theorem line_header {d : Deco} (h : d.Ok) (h' : STok.nl ∉ d.before) (z : ℤ) (r : List STok) :
    ∃ l, line (headerText d z ++ r) = .ok (l, r) := by
  have e : headerText d z ++ r = (d.before ++ STok.eq :: STok.int z :: d.after) ++ .nl :: r := by simp [headerText]
  rw [e]
  exact ⟨_, line_text (by simp [h', h.2]) r⟩

/-- C84 fails for an empty marker before another one: dropping "the rest of the line" drops the tag of the next marker, its number of faces is taken as the tag, and the
search for the number of faces runs into the end of the file. -/
theorem C84_empty_marker_refuted (D : Desc) {L : Layout} (hL : L.Ok) (hc : D.cells ≠ []) (ht : ∀ c ∈ D.cells, c.length = 3 ∨ c.length = 4)
    (hp : D.points ≠ []) {t1 t2 : ℤ} {fs : List (ℤ × ℤ)} (hm : D.markers = [(t1, []), (t2, fs)]) (hb : STok.nl ∉ (L.tag 1).before) (dim : ℤ) :
    readSU2 (D.file L dim []) = .ub := by
  have h1 := many_lines (p := cell) (ser := fun c : List ℤ × ℕ => .int (typeOf c.1) :: c.1.map .int ++ [.int c.2]) (val := fun c => c.1)
    (fun s => bind_nl int_nl _ s) (l := D.cells.zipIdx) (fun b hb r => cell_text (ht b.1 (List.fst_mem_of_mem_zipIdx hb)) _ r)
  have h2 := many_lines (p := point) (ser := fun p : (ℝ × ℝ) × ℕ => [.real p.1.1, .real p.1.2, .int p.2]) (val := fun p => ![p.1.1, p.1.2])
    (fun s => bind_nl real_nl _ s) (l := D.points.zipIdx) (fun b hb r => rfl)
  have e1 : (fun c : List ℤ × ℕ => cellText c.1 c.2) = fun c => (.int (typeOf c.1) :: c.1.map .int ++ [.int c.2]) ++ [.nl] := by
    funext c; simp [cellText]
  have e2 : (fun p : (ℝ × ℝ) × ℕ => pointText p.1 p.2) = fun p => [.real p.1.1, .real p.1.2, .int p.2] ++ [.nl] := rfl
  unfold readSU2 Desc.file
  rw [List.append_assoc, List.append_assoc, bind_ok (header_text hL.ndime _ _), bind_ok (size_text hL.nelem _ _), e1, e2]
  have h1 := h1 (headerText L.npoin D.points.length ++ D.points.zipIdx.flatMap (fun p => [.real p.1.1, .real p.1.2, .int p.2] ++ [.nl]) ++
      (headerText L.nmark D.markers.length ++ (markersText L 0 D.markers ++ [])))
  rw [List.length_zipIdx, if_neg (by simpa using hc)] at h1
  rw [bind_ok h1, bind_ok (show line (STok.nl :: _) = _ by rw [line]), List.append_assoc, bind_ok (size_text hL.npoin _ _)]
  have h2 := h2 (headerText L.nmark D.markers.length ++ (markersText L 0 D.markers ++ []))
  rw [List.length_zipIdx, if_neg (by simpa using hp)] at h2
  rw [bind_ok h2, bind_ok (show line (STok.nl :: _) = _ by rw [line]), bind_ok (size_text hL.nmark _ _), hm, if_neg (by simp)]
  have hs : skipEq (fs.flatMap edgeText) = .ub := skipEq_none (by simp [edgeText])
  obtain ⟨l, hl⟩ := line_header (hL.tag 1) hb t2 (headerText (L.elems 1) fs.length ++ fs.flatMap edgeText)
  have h3 : markers 2 (markersText L 0 [(t1, []), (t2, fs)] ++ []) = .ub := by
    rw [show markersText L 0 [(t1, []), (t2, fs)] ++ [] = markerText L 0 (t1, []) ++
      (headerText (L.tag 1) t2 ++ (headerText (L.elems 1) fs.length ++ fs.flatMap edgeText)) by simp [markersText, markerText],
      markers, bind_ok (marker_text hL 0 _ _), if_pos rfl, bind_ok hl]
    have : markers (0 + 1) (headerText (L.elems 1) fs.length ++ fs.flatMap edgeText) = .ub := by
      rw [zero_add, markers, marker]
      unfold Rd.bind
      rw [header_text (hL.elems 1)]
      simp only [size, header, Rd.bind, hs]
    unfold Rd.bind
    rw [this]
  rw [show ([(t1, []), (t2, fs)] : List (ℤ × List (ℤ × ℤ))).length = 2 from rfl]
  unfold Rd.bind
  rw [h3]

/-- The square with an empty marker in front. -/
example : readSU2 (Desc.file { square with markers := [(1, []), (2, [(0, 1)])] } plain 2 []) = .ub :=
  C84_empty_marker_refuted _ plain_ok (by simp [square]) (by simp [square]) (by simp [square]) rfl (by simp [plain]) 2

/-- C84 fails for three-dimensional files: they are read without complaint, and the coordinates of the points get mixed up. The points of this file are
(0,0,0), (1,0,0) and (0,1,0). -/
theorem C84_dimension_refuted : readSU2 (headerText plain.ndime 3 ++ headerText plain.nelem 1 ++ cellText [0, 1, 2] 0 ++ headerText plain.npoin 3 ++
    [.int 0, .int 0, .int 0, .int 0, .nl, .int 1, .int 0, .int 0, .int 1, .nl, .int 0, .int 1, .int 0, .int 2, .nl] ++
    headerText plain.nmark 1 ++ markersText plain 0 [(2, [(0, 1)])]) =
      .ok ⟨[[0, 1, 2]], [![(0 : ℤ), (0 : ℤ)], ![(0 : ℤ), (1 : ℤ)], ![(0 : ℤ), (1 : ℤ)]], [((0, 1), 2)]⟩ := rfl

/-- C84 fails for unknown types of elements: a tetrahedron is read without complaint as a cell without nodes. -/
theorem C84_type_refuted : readSU2 (headerText plain.ndime 2 ++ headerText plain.nelem 1 ++
    [.int 10, .int 0, .int 1, .int 2, .int 3, .int 0, .nl] ++ headerText plain.npoin 1 ++ pointText (0, 0) 0 ++
    headerText plain.nmark 1 ++ markersText plain 0 [(2, [(0, 1)])]) = .ok ⟨[[]], [![0, 0]], [((0, 1), 2)]⟩ := rfl

/-- C84: names of markers, which the format allows, are rejected with an exception. -/
theorem C84_name_throws (D : Desc) {L : Layout} (hL : L.Ok) (hc : D.cells ≠ []) (ht : ∀ c ∈ D.cells, c.length = 3 ∨ c.length = 4)
    (hp : D.points ≠ []) {n : ℕ} (hn : n ≠ 0) {before after : List STok} (h1 : STok.eq ∉ before) (h2 : STok.nl ∉ after) (w : String) (dim : ℤ) (rest : List STok) :
    readSU2 (headerText L.ndime dim ++ (headerText L.nelem D.cells.length ++ (D.cells.zipIdx.flatMap (fun c => cellText c.1 c.2) ++
      (headerText L.npoin D.points.length ++ (D.points.zipIdx.flatMap (fun p => pointText p.1 p.2) ++
        (headerText L.nmark n ++ (before ++ .eq :: .word w :: after ++ .nl :: rest))))))) = .throws := by
  have g1 := many_lines (p := cell) (ser := fun c : List ℤ × ℕ => .int (typeOf c.1) :: c.1.map .int ++ [.int c.2]) (val := fun c => c.1)
    (fun s => bind_nl int_nl _ s) (l := D.cells.zipIdx) (fun b hb r => cell_text (ht b.1 (List.fst_mem_of_mem_zipIdx hb)) _ r)
  have g2 := many_lines (p := point) (ser := fun p : (ℝ × ℝ) × ℕ => [.real p.1.1, .real p.1.2, .int p.2]) (val := fun p => ![p.1.1, p.1.2])
    (fun s => bind_nl real_nl _ s) (l := D.points.zipIdx) (fun b hb r => rfl)
  have e1 : (fun c : List ℤ × ℕ => cellText c.1 c.2) = fun c => (.int (typeOf c.1) :: c.1.map .int ++ [.int c.2]) ++ [.nl] := by
    funext c; simp [cellText]
  have e2 : (fun p : (ℝ × ℝ) × ℕ => pointText p.1 p.2) = fun p => [.real p.1.1, .real p.1.2, .int p.2] ++ [.nl] := rfl
  unfold readSU2
  rw [bind_ok (header_text hL.ndime _ _), bind_ok (size_text hL.nelem _ _), e1, e2]
  simp only [List.length_zipIdx] at g1 g2
  rw [bind_ok (g1 _), if_neg (by simpa using hc), bind_ok (show line (STok.nl :: _) = _ by rw [line]), bind_ok (size_text hL.npoin _ _),
    bind_ok (g2 _), if_neg (by simpa using hp), bind_ok (show line (STok.nl :: _) = _ by rw [line]), bind_ok (size_text hL.nmark _ _), if_neg hn]
  have h3 : header (before ++ .eq :: .word w :: after ++ .nl :: rest) = .throws := by
    unfold header
    rw [show before ++ STok.eq :: STok.word w :: after ++ .nl :: rest = before ++ .eq :: ((.word w :: after) ++ .nl :: rest) by simp,
      bind_ok (skipEq_before h1 _), bind_ok (line_text (by simp [h2]) _)]
    rfl
  have h4 : markers n (before ++ .eq :: .word w :: after ++ .nl :: rest) = .throws := by
    match n, hn with
    | 1, _ => rw [markers, marker]; unfold Rd.bind; rw [h3]
    | k + 2, _ => rw [markers, marker]; unfold Rd.bind; rw [h3]
  unfold Rd.bind
  rw [h4]

/-! ### Conversion to Gmsh files -/

/-- `UMesh(const MeshData&)`, src/mesh/mesh.cpp:41-48, on data read by `readSU2`: one tag per boundary face, none per cell. Numbers of points are non-negative in
any usable file; negative ones, with which the arrays would be read out of bounds, are mapped to 0 here. -/
def SData.mesh (d : SData) : Mesh where
  npoin := d.points.length
  nelem := d.cells.length
  nbface := d.bfaces.length
  nconnface := 0
  nbtag := 1
  ndtag := 0
  nnode := fun i => (d.cells.getD i []).length
  nfael := fun i => (d.cells.getD i []).length
  inpoel := fun i j => ((d.cells.getD i []).getD j 0).toNat
  bface := fun i j => let f := d.bfaces.getD i ((0, 0), 0); if j = 0 then f.1.1.toNat else f.1.2.toNat
  btag := fun i _ => (d.bfaces.getD i ((0, 0), 0)).2.toNat
  volRegions := fun _ _ => 0
  connface := fun _ _ => 0
  coords := fun i => d.points.getD i 0

/-- C84: converting an SU2 file to a Gmsh file (src/utilities/convertformat.cpp:19-23) and reading that gives the mesh described by the SU2 file. -/
theorem C84_convert (D : Desc) {L : Layout} (hL : L.Ok) (hc : D.cells ≠ []) (ht : ∀ c ∈ D.cells, c.length = 3 ∨ c.length = 4)
    (hp : D.points ≠ []) (hm : D.markers ≠ []) (he : ∀ m ∈ D.markers.dropLast, m.2 ≠ []) (hcn : ∀ c ∈ D.cells, ∀ p ∈ c, 0 ≤ p)
    (hmn : ∀ m ∈ D.markers, 0 ≤ m.1 ∧ ∀ f ∈ m.2, 0 ≤ f.1 ∧ 0 ≤ f.2) (dim : ℤ) (rest : List STok) :
    ∃ d g, readSU2 (D.file L dim rest) = .ok d ∧ readGmsh (writeGmsh d.mesh) = some g ∧
      g.npoin = D.points.length ∧ g.nelem = D.cells.length ∧ g.nbface = (flatten D.markers).length ∧
      (∀ i p, D.points[i]? = some p → g.coords i 0 = p.1 ∧ g.coords i 1 = p.2) ∧
      (∀ i c, D.cells[i]? = some c → g.nnode i = c.length ∧ ∀ j p, c[j]? = some p → g.inpoel i j = some p) ∧
      ∀ i f, (flatten D.markers)[i]? = some f → g.bface i 0 = some f.1.1 ∧ g.bface i 1 = some f.1.2 ∧ g.bface i 2 = some f.2 := by
  have hcell : ∀ i c, D.cells[i]? = some c → D.cells.getD i [] = c := fun i c h => by rw [List.getD_eq_getElem?_getD, h]; rfl
  have hlin : ∀ i, i < D.data.mesh.nelem → (D.data.mesh.nnode i = 3 ∨ D.data.mesh.nnode i = 4) ∧ D.data.mesh.nfael i = D.data.mesh.nnode i := by
    intro i hi
    have hi : i < D.cells.length := hi
    have e := hcell i _ (List.getElem?_eq_getElem hi)
    refine ⟨?_, rfl⟩
    simp only [Desc.data, SData.mesh, e]
    exact ht _ (List.getElem_mem hi)
  obtain ⟨g, h1, h2, h3, h4, -, h5, h6, h7, -⟩ := C32_roundtrip D.data.mesh hlin (List.length_pos_iff.2 hc) (by decide : 1 ≤ 21) (by decide : 0 ≤ 21)
  refine ⟨_, g, C84_read_partial D hL hc ht hp hm he dim rest, h1, ?_, h3, h4, fun i p hip => ?_, fun i c hic => ?_, fun i f hif => ?_⟩
  · rw [h2]; simp [Desc.data, SData.mesh]
  · have hi := (List.getElem?_eq_some_iff.1 hip).1
    rw [h5 i (by simpa [Desc.data, SData.mesh] using hi)]
    simp [Desc.data, SData.mesh, List.getD_eq_getElem?_getD, hip]
  · have hi := (List.getElem?_eq_some_iff.1 hic).1
    obtain ⟨n1, -, n3, -⟩ := h7 i hi
    refine ⟨n1.trans ?_, fun j p hjp => ?_⟩
    · simp only [Desc.data, SData.mesh, hcell i c hic]
    · have hj := (List.getElem?_eq_some_iff.1 hjp).1
      rw [n3 j (by simpa only [Desc.data, SData.mesh, hcell i c hic] using hj)]
      have h0 := hcn c (List.mem_of_getElem? hic) p (List.mem_of_getElem? hjp)
      simp only [Desc.data, SData.mesh, hcell i c hic]
      simp only [List.getD_eq_getElem?_getD, hjp, Option.getD_some, Int.toNat_of_nonneg h0]
  · have hi := (List.getElem?_eq_some_iff.1 hif).1
    obtain ⟨n1, n2⟩ := h6 i hi
    have hmem := List.mem_of_getElem? hif
    simp only [flatten, List.mem_flatMap, List.mem_map] at hmem
    obtain ⟨m, hm1, e, he1, rfl⟩ := hmem
    obtain ⟨t0, t1⟩ := hmn m hm1
    obtain ⟨t2, t3⟩ := t1 e he1
    refine ⟨?_, ?_, ?_⟩
    · rw [n1 0 (by decide)]; simp [Desc.data, SData.mesh, List.getD_eq_getElem?_getD, hif, t2]
    · rw [n1 1 (by decide)]; simp [Desc.data, SData.mesh, List.getD_eq_getElem?_getD, hif, t3]
    · rw [show 2 = 2 + 0 from rfl, n2 0 (by decide : 0 < 1)]; simp [Desc.data, SData.mesh, List.getD_eq_getElem?_getD, hif, t0]

example : ∃ d g, readSU2 (square.file plain 2 []) = .ok d ∧ readGmsh (writeGmsh d.mesh) = some g ∧ g.nelem = 2 ∧ g.bface 3 1 = some 0 := by
  obtain ⟨d, g, h1, h2, -, h3, -, -, -, h4⟩ := C84_convert square plain_ok (by simp [square]) (by simp [square]) (by simp [square]) (by simp [square])
    (by simp [square]) (by simp [square]) (by simp [square]; constructor <;> omega) 2 []
  exact ⟨d, g, h1, h2, h3, (h4 3 ((3, 0), 4) rfl).2.1⟩

end Su2
end Msh
end FVENS
