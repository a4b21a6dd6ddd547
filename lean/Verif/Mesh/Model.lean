import Verif.BC.Model
import Mathlib.Data.List.Sort

/-!
# Mesh topology (model of `src/mesh/mesh.{hpp,cpp}`)

Arrays are functions on indices, written with `upd` / `upd2`; loops are folds over index ranges in
the order of the code.  `fint` is `ℕ`, the marker `-1` is `none`.  Rows of `intfac`, which the code
writes to consecutive row numbers, are a list.  Machine integers are unbounded here.
-/

namespace FVENS
namespace Msh

/-- Array element assignment `f(i) = v`, src/utilities/aarray2d.hpp:121-128. -/
def upd {α : Type*} (f : ℕ → α) (i : ℕ) (v : α) : ℕ → α := fun a => if a = i then v else f a

/-- Array element assignment `f(i,j) = v`, src/utilities/aarray2d.hpp:121-128. -/
def upd2 {α : Type*} (f : ℕ → ℕ → α) (i j : ℕ) (v : α) : ℕ → ℕ → α :=
  fun a b => if a = i ∧ b = j then v else f a b

/-- `for(int i = 0; i < n; i++)`, the loop form used throughout src/mesh/mesh.cpp. -/
def forLt {σ : Type*} (n : ℕ) (s : σ) (body : ℕ → σ → σ) : σ :=
  (List.range n).foldl (fun s i => body i s) s

/-- The data members of `UMesh` that are input to the topological routines, src/mesh/mesh.hpp:317-375.
`bface` holds the two node numbers of a boundary face, `btag` its tags (the code keeps both in one
array, columns 0-1 and 2..); `connface` has the five columns documented at src/mesh/mesh.hpp:60-67. -/
structure Mesh where
  npoin : ℕ
  nelem : ℕ
  nbface : ℕ
  nconnface : ℕ
  nbtag : ℕ
  ndtag : ℕ
  nnode : ℕ → ℕ
  nfael : ℕ → ℕ
  inpoel : ℕ → ℕ → ℕ
  bface : ℕ → ℕ → ℕ
  btag : ℕ → ℕ → ℕ
  volRegions : ℕ → ℕ → ℕ
  connface : ℕ → ℕ → ℕ
  coords : ℕ → Fin 2 → ℝ

variable (m : Mesh)

/-! ### Elements surrounding points -/

/-- Counting loop, src/mesh/mesh.cpp:429-441. -/
def esupCount : ℕ → ℕ :=
  forLt m.nelem (fun _ => 0) fun i p =>
    forLt (m.nfael i) p fun j p => upd p (m.inpoel i j + 1) (p (m.inpoel i j + 1) + 1)

/-- Cumulative sum, src/mesh/mesh.cpp:443-444. -/
def cumulate (n : ℕ) (p : ℕ → ℕ) : ℕ → ℕ := forLt n p fun i p => upd p (i + 1) (p (i + 1) + p i)

/-- `(esup, esup_p)` during the filling loop. -/
structure Csr where
  val : ℕ → ℕ
  ptr : ℕ → ℕ

/-- Body of the filling loop, src/mesh/mesh.cpp:452-458. -/
def csrPush (s : Csr) (point elem : ℕ) : Csr :=
  ⟨upd s.val (s.ptr point) elem, upd s.ptr point (s.ptr point + 1)⟩

/-- Filling loop, src/mesh/mesh.cpp:446-460. -/
def esupFill (p : ℕ → ℕ) : Csr :=
  forLt m.nelem ⟨fun _ => 0, p⟩ fun i s => forLt (m.nfael i) s fun j s => csrPush s (m.inpoel i j) i

/-- Final shift of the pointers, src/mesh/mesh.cpp:465-467. -/
def shiftBack (n : ℕ) (p : ℕ → ℕ) : ℕ → ℕ :=
  upd ((List.range n).reverse.foldl (fun p i => upd p (i + 1) (p i)) p) 0 0

/-- `compute_elementsSurroundingPoints`, src/mesh/mesh.cpp:426-468. -/
def esup : Csr :=
  let s := esupFill m (cumulate m.npoin (esupCount m))
  ⟨s.val, shiftBack m.npoin s.ptr⟩

/-- The list stored for one point: entries `ptr v .. ptr (v+1) - 1`. -/
def Csr.list (c : Csr) (v : ℕ) : List ℕ :=
  (List.range (c.ptr (v + 1) - c.ptr v)).map fun k => c.val (c.ptr v + k)

/-! ### Elements surrounding elements -/

/-- Vertex `k` of face `f` of the outer element (`lpofai`), src/mesh/mesh.cpp:491-501, 507-508. -/
def faceNodeI (i f k : ℕ) : ℕ := m.inpoel i ((f + k) % m.nnode i)

/-- Vertex `k` of face `g` of the inner element (`lpofaj`), src/mesh/mesh.cpp:520-524, 532. -/
def faceNodeJ (j g k : ℕ) : ℕ := m.inpoel j ((g + k) % m.nfael j)

/-- Innermost comparison, src/mesh/mesh.cpp:526-541. -/
def esuelMatch (lpoin : ℕ → ℕ) (i f j g : ℕ) (e : ℕ → ℕ → Option ℕ) : ℕ → ℕ → Option ℕ :=
  let icoun := forLt 2 0 fun k c => if lpoin (faceNodeJ m j g k) = 1 then c + 1 else c
  if icoun = 2 then upd2 (upd2 e i f (some j)) j g (some i) else e

/-- Loop over the elements around the first vertex, src/mesh/mesh.cpp:512-541. -/
def esuelSearch (c : Csr) (lpoin : ℕ → ℕ) (i f : ℕ) (e : ℕ → ℕ → Option ℕ) : ℕ → ℕ → Option ℕ :=
  (c.list (faceNodeI m i f 0)).foldl (fun e j =>
    if j ≠ i then forLt (m.nfael j) e fun g e => esuelMatch m lpoin i f j g e else e) e

/-- Body for one face of one element with the marker array, src/mesh/mesh.cpp:503-543. -/
def esuelFace (c : Csr) (i f : ℕ) (s : (ℕ → ℕ) × (ℕ → ℕ → Option ℕ)) :
    (ℕ → ℕ) × (ℕ → ℕ → Option ℕ) :=
  let lp := forLt 2 s.1 fun k lp => upd lp (faceNodeI m i f k) 1
  (forLt 2 lp fun k lp => upd lp (faceNodeI m i f k) 0, esuelSearch m c lp i f s.2)

/-- `compute_elementsSurroundingElements`, src/mesh/mesh.cpp:470-545. -/
def esuel (c : Csr) : ℕ → ℕ → Option ℕ :=
  (forLt m.nelem ((fun _ => 0), fun _ _ => none) fun i s =>
    forLt (m.nfael i) s fun f s => esuelFace m c i f s).2

/-! ### Host cells of boundary faces -/

/-- `std::set_intersection` on sorted ranges (C++ standard library, used at
src/mesh/mesh.cpp:633-634). -/
def setIntersection : List ℕ → List ℕ → List ℕ
  | [], _ => []
  | _ :: _, [] => []
  | a :: as, b :: bs =>
    if a < b then setIntersection as (b :: bs)
    else if b < a then setIntersection (a :: as) bs
    else a :: setIntersection as bs
termination_by as bs => as.length + bs.length

/-- `std::sort` of a list of cell numbers, src/mesh/mesh.cpp:621. -/
def sortNat (l : List ℕ) : List ℕ := l.insertionSort (· ≤ ·)

/-- `getFaceEIndex(true, iface, lelem)` for a physical boundary face given by its two nodes,
src/mesh/mesh.cpp:547-603; `none` is `-1`. -/
def faceEIndex (p q elem : ℕ) : Option ℕ :=
  (List.range (m.nfael elem)).find? fun ifael =>
    (List.range 2).all fun k => decide (faceNodeI m elem ifael k = p) || decide (faceNodeI m elem ifael k = q)

/-- Body of `compute_phyBFaceNeighboringElements` for one face, src/mesh/mesh.cpp:611-654.  An empty
intersection is indexed (`intersection[0]`) and a missing face index is used as an array index in
release builds: both are undefined behaviour. -/
def bfaceHost (c : Csr) (p q : ℕ) : BC.Res (ℕ × ℕ) :=
  let inter := setIntersection (sortNat (c.list q)) (sortNat (c.list p))
  if 1 < inter.length then .throws
  else match inter with
    | [] => .ub
    | e :: _ => match faceEIndex m p q e with
      | none => .ub
      | some f => .ok (e, f)

/-- Sequencing of a loop that may throw: the first failure wins. -/
def mapRes {α β : Type} (f : α → BC.Res β) : List α → BC.Res (List β)
  | [] => .ok []
  | a :: as => match f a with
    | .throws => .throws
    | .ub => .ub
    | .ok b => match mapRes f as with
      | .throws => .throws
      | .ub => .ub
      | .ok bs => .ok (b :: bs)

/-- `compute_phyBFaceNeighboringElements`, src/mesh/mesh.cpp:605-657. -/
def bfaceHosts (c : Csr) : BC.Res (List (ℕ × ℕ)) :=
  mapRes (fun iface => bfaceHost m c (m.bface iface 0) (m.bface iface 1)) (List.range m.nbface)

/-- `intelems[iface]`, `hostelems[iface]`, src/mesh/mesh.cpp:63-64, 690 (the default is never read:
see `bfaceHosts_ok`). -/
def hostAt (hosts : List (ℕ × ℕ)) (iface : ℕ) : ℕ × ℕ := hosts.getD iface (0, 0)

/-! ### Boundary face orientation -/

/-- Loop body of `correctBoundaryFaceOrientation`, src/mesh/mesh.cpp:62-77. -/
def orientBody (iface : ℕ) (host : ℕ × ℕ) (b : ℕ → ℕ → ℕ) : ℕ → ℕ → ℕ :=
  if faceNodeI m host.1 host.2 0 ≠ b iface 0 ∨ faceNodeI m host.1 host.2 1 ≠ b iface 1 then
    upd2 (upd2 b iface 0 (b iface 1)) iface 1 (b iface 0)
  else b

/-- `correctBoundaryFaceOrientation`, src/mesh/mesh.cpp:53-81. -/
def correctOrientation : BC.Res Mesh :=
  match bfaceHosts m (esup m) with
  | .throws => .throws
  | .ub => .ub
  | .ok hosts =>
    let b := forLt m.nbface m.bface fun iface b => orientBody m iface (hostAt hosts iface) b
    .ok { m with bface := b }

/-! ### Faces -/

/-- One row of `intfac`: left cell, right cell, first and second node, src/mesh/mesh.hpp:116-121. -/
structure Face where
  left : ℕ
  right : ℕ
  n0 : ℕ
  n1 : ℕ
  deriving DecidableEq, Repr

/-- State of `compute_faceConnectivity`: `esuel`, `elemface` and the rows of `intfac`. -/
structure FState where
  esuel : ℕ → ℕ → Option ℕ
  elemface : ℕ → ℕ → Option ℕ
  faces : List Face

/-- Physical boundary face loop body, src/mesh/mesh.cpp:689-701. -/
def bfaceBody (iface : ℕ) (host : ℕ × ℕ) (s : FState) : FState :=
  let g := m.nelem + m.nconnface + iface
  ⟨upd2 s.esuel host.1 host.2 (some g), upd2 s.elemface host.1 host.2 (some iface),
   s.faces ++ [⟨host.1, g, m.bface iface 0, m.bface iface 1⟩]⟩

/-- The test `je > ie && je < nelem`, src/mesh/mesh.cpp:718. -/
def isInner (e : ℕ → ℕ → Option ℕ) (ie i : ℕ) : Option ℕ :=
  match e ie i with
  | none => none
  | some je => if ie < je ∧ je < m.nelem then some je else none

/-- Interior face loop body, src/mesh/mesh.cpp:717-733. `faces.length` is `faceindex`. -/
def innerBody (ie i : ℕ) (s : FState) : FState :=
  match isInner m s.esuel ie i with
  | none => s
  | some je =>
    let in1 := (i + 1) % m.nnode ie
    let fi := s.faces.length
    let ef := upd2 s.elemface ie i (some fi)
    let ef := forLt (m.nnode je) ef fun jn ef =>
      if m.inpoel ie in1 = m.inpoel je jn then upd2 ef je jn (some fi) else ef
    ⟨s.esuel, ef, s.faces ++ [⟨ie, je, m.inpoel ie i, m.inpoel ie in1⟩]⟩

/-- Connectivity face loop body, src/mesh/mesh.cpp:744-757. -/
def connBody (ic : ℕ) (s : FState) : FState :=
  let e := m.connface ic 0
  let f := m.connface ic 1
  let fi := s.faces.length
  ⟨upd2 s.esuel e f (some (m.nelem + ic)), upd2 s.elemface e f (some fi),
   s.faces ++ [⟨e, m.nelem + ic, faceNodeI m e f 0, faceNodeI m e f 1⟩]⟩

/-- `ninface`, src/mesh/mesh.cpp:662-672. -/
def ninface (e : ℕ → ℕ → Option ℕ) : ℕ :=
  forLt m.nelem 0 fun ie n => forLt (m.nfael ie) n fun i n => if (isInner m e ie i).isSome then n + 1 else n

/-- `compute_faceConnectivity`, src/mesh/mesh.cpp:659-762. -/
def faceConnectivity (c : Csr) (e : ℕ → ℕ → Option ℕ) : BC.Res FState :=
  match bfaceHosts m c with
  | .throws => .throws
  | .ub => .ub
  | .ok hosts =>
    let s := forLt m.nbface ⟨e, fun _ _ => none, []⟩ fun iface s => bfaceBody m iface (hostAt hosts iface) s
    let s := forLt m.nelem s fun ie s => forLt (m.nnode ie) s fun i s => innerBody m ie i s
    .ok (forLt m.nconnface s fun ic s => connBody m ic s)

/-- `compute_topological`, src/mesh/mesh.cpp:331-340. -/
def topological : BC.Res FState :=
  faceConnectivity m (esup m) (esuel m (esup m))

/-! ### Reordering and periodic map -/

/-- `reorder_cells`, src/mesh/mesh.cpp:83-99. -/
def reorderCells (perm : ℕ → ℕ) : Mesh :=
  { m with inpoel := fun i j => if i < m.nelem then m.inpoel (perm i) j else m.inpoel i j
           nnode := fun i => if i < m.nelem then m.nnode (perm i) else m.nnode i
           nfael := fun i => if i < m.nelem then m.nfael (perm i) else m.nfael i }

end Msh
end FVENS
