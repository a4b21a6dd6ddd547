import Verif.Mesh.Geom

/-!
# Gmsh-2 files (C32, C72)

A file is a list of lines, a line a list of whitespace-separated tokens.  The text form of numbers is not
modelled: an integer token reads back as the same integer and a real token as the same real (the code prints
coordinates with 20 significant digits, src/aconstants.hpp:41, which identifies every double).
-/

namespace FVENS
namespace Msh

/-- A token of a mesh file. -/
inductive Tok where
  | int (z : ℤ)
  | real (x : ℝ)
  | word (s : String)

/-- `infile >> (int)`. A failed extraction, after which the stream delivers nothing more, is `none`;
so is an integer read from a non-integer number. -/
def rInt : List Tok → Option (ℤ × List Tok)
  | Tok.int z :: r => some (z, r)
  | _ => none

/-- `infile >> (double)`. -/
def rReal : List Tok → Option (ℝ × List Tok)
  | Tok.real x :: r => some (x, r)
  | Tok.int z :: r => some ((z : ℝ), r)
  | _ => none

/-- `infile >> (string)`: takes any token. -/
def rWord : List Tok → Option (Unit × List Tok)
  | _ :: r => some ((), r)
  | [] => none

/-- A counted loop of reads. -/
def rMany {α : Type} (p : List Tok → Option (α × List Tok)) : ℕ → List Tok → Option (List α × List Tok)
  | 0, s => some ([], s)
  | n + 1, s => (p s).bind fun a => (rMany p n a.2).map fun b => (a.1 :: b.1, b.2)

/-- One line of the node section, src/mesh/meshreaders.cpp:82-88: the node number is discarded. -/
def rNode (s : List Tok) : Option ((Fin 2 → ℝ) × List Tok) :=
  (rInt s).bind fun a => (rReal a.2).bind fun x => (rReal x.2).bind fun y => (rReal y.2).map fun z =>
    (![x.1, y.1], z.2)

/-- What the reader does for an element type, src/mesh/meshreaders.cpp:114-217: whether it is a boundary face,
its number of nodes, its number of faces (0 for faces), and the value given to `nnofa`. -/
structure TypeInfo where
  isFace : Bool
  nn : ℕ
  nf : ℕ
  nnofa : ℕ

/-- The switch on the element type, src/mesh/meshreaders.cpp:114-217; unknown types are read as triangles. -/
def typeInfo (t : ℤ) : TypeInfo :=
  if t = 1 then ⟨true, 2, 0, 2⟩
  else if t = 8 then ⟨true, 3, 0, 3⟩
  else if t = 2 then ⟨false, 3, 3, 2⟩
  else if t = 3 then ⟨false, 4, 4, 2⟩
  else if t = 9 then ⟨false, 6, 3, 3⟩
  else if t = 16 then ⟨false, 8, 4, 3⟩
  else if t = 10 then ⟨false, 9, 4, 3⟩
  else ⟨false, 3, 3, 2⟩

/-- An entry of the element section. -/
structure Elm where
  typ : ℤ
  tags : List ℤ
  nodes : List ℤ

/-- One entry of the element section, src/mesh/meshreaders.cpp:106-217. The row buffer has 25 columns
(line 94); writing past it is undefined behaviour, here `none`. -/
def rElm (s : List Tok) : Option (Elm × List Tok) :=
  (rInt s).bind fun a => (rInt a.2).bind fun t => (rInt t.2).bind fun k =>
    (rMany rInt k.1.toNat k.2).bind fun tags => (rMany rInt (typeInfo t.1).nn tags.2).bind fun nodes =>
      if (typeInfo t.1).nn + k.1.toNat ≤ 25 then some (⟨t.1, tags.1, nodes.1⟩, nodes.2) else none

/-- Row of the buffer `elms`: nodes, then tags, then indeterminate values. -/
def Elm.row (e : Elm) (j : ℕ) : Option ℤ :=
  if j < (typeInfo e.typ).nn then e.nodes[j]? else e.tags[j - (typeInfo e.typ).nn]?

/-- Node count of a cell; 0 for boundary faces (`nnodes`, src/mesh/meshreaders.cpp:102). -/
def Elm.nn (e : Elm) : ℕ := if (typeInfo e.typ).isFace then 0 else (typeInfo e.typ).nn

/-- Result of reading, src/mesh/meshreaders.hpp `MeshData`; `none` entries are indeterminate. -/
structure GData where
  npoin : ℕ
  nelem : ℕ
  nbface : ℕ
  nnofa : ℕ
  maxnnode : ℕ
  nbtag : ℕ
  ndtag : ℕ
  coords : ℕ → Fin 2 → ℝ
  nnode : ℕ → ℕ
  nfael : ℕ → ℕ
  bface : ℕ → ℕ → Option ℤ
  inpoel : ℕ → ℕ → Option ℤ
  volRegions : ℕ → ℕ → Option ℤ

/-- Greatest number of tags among some entries (`nbtag`, `ndtag`). -/
def maxTags (l : List Elm) : ℕ := l.foldl (fun k e => if e.tags.length > k then e.tags.length else k) 0

/-- Entries that are boundary faces. -/
def faceElms (l : List Elm) : List Elm := l.filter fun e => (typeInfo e.typ).isFace

/-- Entries that are cells. -/
def cellElms (l : List Elm) : List Elm := l.filter fun e => !(typeInfo e.typ).isFace

/-- Row `i` of the buffer. -/
def rowAt (l : List Elm) (i j : ℕ) : Option ℤ := (l[i]?).bind fun e => e.row j

/-- Second half of the reader, src/mesh/meshreaders.cpp:223-262. The first `nbface` rows are taken as boundary
faces and the others as cells, whatever they are. `maxnnode` starts from entry `nbface`, which must exist
(line 227); `maxnfael`, only used for array sizes, is left out. -/
def buildData (pts : List (Fin 2 → ℝ)) (l : List Elm) : Option GData :=
  if (faceElms l).length < l.length then
    let nb := (faceElms l).length
    let nt := maxTags (faceElms l)
    let nnofa := (l.getLast?.map fun e => (typeInfo e.typ).nnofa).getD 0
    let nnodes : ℕ → ℕ := fun i => (l[i]?.map Elm.nn).getD 0
    let maxnn := l.foldl (fun k e => if e.nn > k then e.nn else k) (nnodes nb)
    some {
      npoin := pts.length
      nelem := (cellElms l).length
      nbface := nb
      nnofa := nnofa
      maxnnode := maxnn
      nbtag := nt
      ndtag := maxTags (cellElms l)
      coords := fun i => pts.getD i 0
      nnode := fun i => nnodes (i + nb)
      nfael := fun i => (l[i + nb]?.map fun e => (typeInfo e.typ).nf).getD 0
      bface := fun i j => if j < nnofa then (rowAt l i j).map (· - 1) else rowAt l i j
      inpoel := fun i j => if j < nnodes (i + nb) then (rowAt l (i + nb) j).map (· - 1) else some (-1)
      volRegions := fun i j => rowAt l (i + nb) (j + nnodes (i + nb)) }
  else none

/-- `readGmsh2`, src/mesh/meshreaders.cpp:66-265. A file of fewer than four lines makes the skipping loop run
forever; the result is then `none`. -/
def readGmsh (file : List (List Tok)) : Option GData :=
  if file.length < 4 then none
  else
    let s := (file.drop 4).flatten
    (rInt s).bind fun np => (rMany rNode np.1.toNat np.2).bind fun pts =>
      (rWord pts.2).bind fun w1 => (rWord w1.2).bind fun w2 => (rInt w2.2).bind fun ne =>
        (rMany rElm ne.1.toNat ne.2).bind fun l => buildData pts.1 l.1

/-- Tags written for an entry: the given ones, filled up to two, src/mesh/mesh.cpp:241-248, 274-281. -/
def outTags (n : ℕ) (tag : ℕ → ℕ) : List ℤ :=
  (List.range n).map (fun i => (tag i : ℤ)) ++
  (List.range (max n 2 - n)).map fun _ => if n = 0 then 1 else 1 + (tag (n - 1) : ℤ)

/-- Element type for a node count; unknown counts keep the previous type, src/mesh/mesh.cpp:262-271. -/
def elmType (prev : ℤ) (nn : ℕ) : ℤ :=
  if nn = 3 then 2 else if nn = 4 then 3 else if nn = 6 then 9 else if nn = 8 then 16 else if nn = 9 then 10 else prev

/-- Element type written for cell `i`, src/mesh/mesh.cpp:209, 260-272. -/
def elmTypeAt (nnode : ℕ → ℕ) : ℕ → ℤ
  | 0 => elmType 2 (nnode 0)
  | i + 1 => elmType (elmTypeAt nnode i) (nnode (i + 1))

/-- A line of the element section, src/mesh/mesh.cpp:240-257, 272-284. -/
def elmLine (id typ : ℤ) (tags nodes : List ℤ) : List Tok :=
  [Tok.int id, Tok.int typ, Tok.int tags.length] ++ tags.map Tok.int ++ nodes.map Tok.int

/-- `writeGmsh2`, src/mesh/mesh.cpp:204-287, for two-node faces. -/
def writeGmsh (m : Mesh) : List (List Tok) :=
  [[Tok.word "$MeshFormat"], [Tok.real 2.2, Tok.int 0, Tok.int 8], [Tok.word "$EndMeshFormat"], [Tok.word "$Nodes"],
   [Tok.int m.npoin]] ++
  (List.range m.npoin).map (fun (ip : ℕ) => [Tok.int (ip + 1), Tok.real (m.coords ip 0), Tok.real (m.coords ip 1), Tok.real 0]) ++
  [[Tok.word "$EndNodes"], [Tok.word "$Elements"], [Tok.int (m.nelem + m.nbface)]] ++
  (List.range m.nbface).map (fun (f : ℕ) => elmLine (f + 1) 1 (outTags m.nbtag (m.btag f))
    [(m.bface f 0 : ℤ) + 1, (m.bface f 1 : ℤ) + 1]) ++
  (List.range m.nelem).map (fun (i : ℕ) => elmLine (m.nbface + i + 1) (elmTypeAt m.nnode i) (outTags m.ndtag (m.volRegions i))
    ((List.range (m.nnode i)).map fun k => (m.inpoel i k : ℤ) + 1)) ++
  [[Tok.word "$EndElements"]]

/-! ### Parsing lemmas -/

theorem rMany_flatMap {α β : Type} {p : List Tok → Option (α × List Tok)} {ser : β → List Tok} {val : β → α}
    (l : List β) (h : ∀ b ∈ l, ∀ r, p (ser b ++ r) = some (val b, r)) (r : List Tok) :
    rMany p l.length (l.flatMap ser ++ r) = some (l.map val, r) := by
  induction l with
  | nil => rfl
  | cons b l ih =>
    rw [List.length_cons, List.flatMap_cons, List.append_assoc]
    simp only [rMany, h b (by simp), Option.bind_some]
    rw [ih fun b hb => h b (by simp [hb])]
    rfl

theorem rMany_ints (l : List ℤ) (r : List Tok) : rMany rInt l.length (l.map Tok.int ++ r) = some (l, r) := by
  have e : l.flatMap (fun z => [Tok.int z]) = l.map Tok.int := by induction l <;> simp_all [List.flatMap_cons]
  have := rMany_flatMap (p := rInt) (ser := fun z => [Tok.int z]) (val := fun z => z) l (fun b _ r => rfl) r
  rw [e, List.map_id'] at this
  exact this

/-- An entry whose line is read back as it is. -/
def Elm.Ok (e : Elm) : Prop :=
  e.nodes.length = (typeInfo e.typ).nn ∧ (typeInfo e.typ).nn + e.tags.length ≤ 25

theorem rElm_line {e : Elm} (h : e.Ok) (id : ℤ) (r : List Tok) :
    rElm (elmLine id e.typ e.tags e.nodes ++ r) = some (e, r) := by
  have ht := rMany_ints e.tags (e.nodes.map Tok.int ++ r)
  have hn := rMany_ints e.nodes r
  rw [h.1] at hn
  simp only [elmLine, List.append_assoc, List.cons_append, List.nil_append, rElm, rInt, Option.bind_some,
    Int.toNat_natCast, ht, hn, h.2, if_true]

/-- A file in the layout of the format: four header lines, numbered nodes, numbered entries. -/
def fileOf (hdr : List (List Tok)) (nodes : List (ℤ × ℝ × ℝ × ℝ)) (w1 w2 : Tok) (elms : List (ℤ × Elm))
    (rest : List Tok) : List (List Tok) :=
  hdr ++ [[Tok.int nodes.length]] ++
  nodes.map (fun v => [Tok.int v.1, Tok.real v.2.1, Tok.real v.2.2.1, Tok.real v.2.2.2]) ++
  [[w1], [w2], [Tok.int elms.length]] ++
  elms.map (fun e => elmLine e.1 e.2.typ e.2.tags e.2.nodes) ++ [rest]

/-- The reader delivers the listed nodes and entries to its second half. -/
theorem readGmsh_fileOf {hdr : List (List Tok)} (hh : hdr.length = 4) (nodes : List (ℤ × ℝ × ℝ × ℝ)) (w1 w2 : Tok)
    (elms : List (ℤ × Elm)) (he : ∀ e ∈ elms, e.2.Ok) (rest : List Tok) :
    readGmsh (fileOf hdr nodes w1 w2 elms rest) =
      buildData (nodes.map fun v => ![v.2.1, v.2.2.1]) (elms.map Prod.snd) := by
  have h4 : ¬ (fileOf hdr nodes w1 w2 elms rest).length < 4 := by
    simp only [fileOf, List.length_append, hh]; omega
  have hd : ((fileOf hdr nodes w1 w2 elms rest).drop 4).flatten = Tok.int nodes.length ::
      (nodes.flatMap (fun v => [Tok.int v.1, Tok.real v.2.1, Tok.real v.2.2.1, Tok.real v.2.2.2]) ++
       (w1 :: w2 :: Tok.int elms.length :: (elms.flatMap (fun e => elmLine e.1 e.2.typ e.2.tags e.2.nodes) ++ rest))) := by
    unfold fileOf
    simp only [List.append_assoc]
    rw [← hh, List.drop_left]
    simp [List.flatMap_def]
  unfold readGmsh
  rw [if_neg h4, hd]
  have hn := rMany_flatMap (p := rNode)
    (ser := fun v : ℤ × ℝ × ℝ × ℝ => [Tok.int v.1, Tok.real v.2.1, Tok.real v.2.2.1, Tok.real v.2.2.2])
    (val := fun v => ![v.2.1, v.2.2.1]) nodes (fun b _ r => rfl)
    (w1 :: w2 :: Tok.int elms.length :: (elms.flatMap (fun e => elmLine e.1 e.2.typ e.2.tags e.2.nodes) ++ rest))
  have hel := rMany_flatMap (p := rElm) (ser := fun e : ℤ × Elm => elmLine e.1 e.2.typ e.2.tags e.2.nodes)
    (val := Prod.snd) elms (fun b hb r => rElm_line (he b hb) b.1 r) rest
  simp only [rInt, Option.bind_some, Int.toNat_natCast, hn, rWord, hel]

/-! ### C72: what the reader makes of a file -/

theorem maxTags_le {l : List Elm} {e : Elm} (h : e ∈ l) : e.tags.length ≤ maxTags l := by
  have aux : ∀ (l : List Elm) (k : ℕ), k ≤ l.foldl (fun k e => if e.tags.length > k then e.tags.length else k) k ∧
      ∀ e ∈ l, e.tags.length ≤ l.foldl (fun k e => if e.tags.length > k then e.tags.length else k) k := by
    intro l
    induction l with
    | nil => intro k; simp
    | cons a l ih =>
      intro k
      rw [List.foldl_cons]
      obtain ⟨h1, h2⟩ := ih (if a.tags.length > k then a.tags.length else k)
      refine ⟨le_trans (by split_ifs <;> omega) h1, fun e he => ?_⟩
      rcases List.mem_cons.1 he with rfl | he
      · exact le_trans (by split_ifs <;> omega) h1
      · exact h2 e he
  exact (aux l 0).2 e h

theorem maxTags_const {l : List Elm} {k : ℕ} (h : ∀ e ∈ l, e.tags.length = k) (hl : l ≠ []) : maxTags l = k := by
  have aux : ∀ (l : List Elm), (∀ e ∈ l, e.tags.length = k) → ∀ k', k' ≤ k →
      l.foldl (fun k e => if e.tags.length > k then e.tags.length else k) k' ≤ k := by
    intro l
    induction l with
    | nil => intro _ k' h; exact h
    | cons a l ih =>
      intro h k' hk
      rw [List.foldl_cons]
      refine ih (fun e he => h e (by simp [he])) _ ?_
      rw [h a (by simp)]; split_ifs <;> omega
  apply le_antisymm (aux l h 0 (Nat.zero_le _))
  obtain ⟨e, he⟩ := List.exists_mem_of_ne_nil l hl
  rw [← h e he]; exact maxTags_le he

theorem Elm.row_node {e : Elm} {j : ℕ} (hj : j < (typeInfo e.typ).nn) : e.row j = e.nodes[j]? := by
  simp [Elm.row, hj]

theorem Elm.row_tag {e : Elm} (j : ℕ) : e.row (j + (typeInfo e.typ).nn) = e.tags[j]? := by
  simp [Elm.row]

/-- C72 (part): a file listing `F` linear boundary faces followed by `E` cells of linear type, at least one, is
read as exactly these: node coordinates in file order, cell vertices and face nodes decreased by one, tags in
order. Missing: files in which the order of the entries or the numbering of the nodes is different, see
`C72_order_refuted` and `C72_node_numbers_refuted`. -/
theorem C72_faces_first_partial {hdr : List (List Tok)} (hh : hdr.length = 4) (nodes : List (ℤ × ℝ × ℝ × ℝ)) (w1 w2 : Tok)
    (F E : List (ℤ × Elm)) (hF : ∀ e ∈ F, e.2.typ = 1 ∧ e.2.Ok) (hE : ∀ e ∈ E, (e.2.typ = 2 ∨ e.2.typ = 3) ∧ e.2.Ok)
    (hne : E ≠ []) (rest : List Tok) :
    ∃ d, readGmsh (fileOf hdr nodes w1 w2 (F ++ E) rest) = some d ∧
      d.npoin = nodes.length ∧ d.nbface = F.length ∧ d.nelem = E.length ∧ d.nnofa = 2 ∧
      (∀ i v, nodes[i]? = some v → d.coords i 0 = v.2.1 ∧ d.coords i 1 = v.2.2.1) ∧
      (∀ i e, F[i]? = some e → (∀ j, j < 2 → d.bface i j = (e.2.nodes[j]?).map (· - 1)) ∧
        ∀ j, j < e.2.tags.length → d.bface i (2 + j) = e.2.tags[j]?) ∧
      (∀ i e, E[i]? = some e → d.nnode i = e.2.nodes.length ∧ d.nfael i = e.2.nodes.length ∧
        (∀ j, j < e.2.nodes.length → d.inpoel i j = (e.2.nodes[j]?).map (· - 1)) ∧
        (∀ j, e.2.nodes.length ≤ j → d.inpoel i j = some (-1)) ∧
        ∀ j, d.volRegions i j = e.2.tags[j]?) ∧
      d.nbtag = maxTags (F.map Prod.snd) ∧ d.ndtag = maxTags (E.map Prod.snd) := by
  have hok : ∀ e ∈ F ++ E, e.2.Ok := by
    intro e he
    rcases List.mem_append.1 he with h | h
    · exact (hF e h).2
    · exact (hE e h).2
  rw [readGmsh_fileOf hh nodes w1 w2 (F ++ E) hok rest, List.map_append]
  have f1 : faceElms (F.map Prod.snd ++ E.map Prod.snd) = F.map Prod.snd := by
    unfold faceElms
    rw [List.filter_append, List.filter_eq_self.2, List.filter_eq_nil_iff.2, List.append_nil]
    · intro e he
      obtain ⟨x, hx, rfl⟩ := List.mem_map.1 he
      rcases (hE x hx).1 with h | h <;> simp [typeInfo, h]
    · intro e he
      obtain ⟨x, hx, rfl⟩ := List.mem_map.1 he
      simp [typeInfo, (hF x hx).1]
  have f2 : cellElms (F.map Prod.snd ++ E.map Prod.snd) = E.map Prod.snd := by
    unfold cellElms
    rw [List.filter_append, List.filter_eq_nil_iff.2, List.filter_eq_self.2, List.nil_append]
    · intro e he
      obtain ⟨x, hx, rfl⟩ := List.mem_map.1 he
      rcases (hE x hx).1 with h | h <;> simp [typeInfo, h]
    · intro e he
      obtain ⟨x, hx, rfl⟩ := List.mem_map.1 he
      simp [typeInfo, (hF x hx).1]
  have hnn : ∀ e : ℤ × Elm, e ∈ E → e.2.nn = e.2.nodes.length ∧ (typeInfo e.2.typ).nn = e.2.nodes.length ∧
      (typeInfo e.2.typ).nf = e.2.nodes.length ∧ (typeInfo e.2.typ).nnofa = 2 := by
    intro e he
    obtain ⟨h1, h2⟩ := hE e he
    rw [h2.1]
    rcases h1 with h | h <;> simp [Elm.nn, typeInfo, h]
  have hlast : (List.getLast? (F.map Prod.snd ++ E.map Prod.snd)).map (fun e => (typeInfo e.typ).nnofa) = some 2 := by
    have hE' : E.map Prod.snd ≠ [] := by simpa using hne
    rw [List.getLast?_append_of_ne_nil _ hE', List.getLast?_eq_some_getLast hE', Option.map_some]
    obtain ⟨x, hx, hxe⟩ := List.mem_map.1 (List.getLast_mem hE')
    rw [← hxe, (hnn x hx).2.2.2]
  unfold buildData
  rw [if_pos]
  swap
  · rw [f1, List.length_append, List.length_map, List.length_map]
    have := List.length_pos_of_ne_nil hne
    omega
  refine ⟨_, rfl, ?_⟩
  simp only [f1, f2, hlast, Option.getD_some, List.length_map]
  refine ⟨trivial, trivial, trivial, trivial, ?_, ?_, ?_, trivial, trivial⟩
  · intro i v hv
    simp [List.getD_eq_getElem?_getD, hv]
  · intro i e hi
    have hm : e ∈ F := List.mem_of_getElem? hi
    obtain ⟨ht, hk⟩ := hF e hm
    have h2 : (typeInfo e.2.typ).nn = 2 := by simp [typeInfo, ht]
    have hrow : ∀ j, rowAt (F.map Prod.snd ++ E.map Prod.snd) i j = e.2.row j := by
      intro j
      have : i < (F.map Prod.snd).length := by rw [List.length_map]; exact (List.getElem?_eq_some_iff.1 hi).1
      simp only [rowAt, List.getElem?_append_left this, List.getElem?_map, hi, Option.map_some, Option.bind_some]
    refine ⟨fun j hj => ?_, fun j hj => ?_⟩
    · rw [if_pos hj, hrow, Elm.row_node (by rw [h2]; exact hj)]
    · rw [if_neg (by omega), hrow, add_comm 2 j]
      have := Elm.row_tag (e := e.2) j
      rwa [h2] at this
  · intro i e hi
    have hm : e ∈ E := List.mem_of_getElem? hi
    obtain ⟨n1, n2, n3, _⟩ := hnn e hm
    have hk := (hE e hm).2
    have hrow : ∀ (g : Elm → ℕ), Option.map g (F.map Prod.snd ++ E.map Prod.snd)[i + F.length]? = some (g e.2) := by
      intro g
      rw [List.getElem?_append_right (by simp)]
      simp [hi]
    have hrow2 : ∀ j, rowAt (F.map Prod.snd ++ E.map Prod.snd) (i + F.length) j = e.2.row j := by
      intro j
      rw [rowAt, List.getElem?_append_right (by simp)]
      simp [hi]
    simp only [hrow, Option.getD_some, n1, n3, hrow2]
    refine ⟨trivial, trivial, fun j hj => ?_, fun j hj => if_neg (by omega), fun j => ?_⟩
    · rw [if_pos hj, Elm.row_node (by rw [n2]; exact hj)]
    · rw [← n2]; exact Elm.row_tag j

/-! ### C32: round trip -/

theorem elmTypeAt_lin {nnode : ℕ → ℕ} {i : ℕ} (h : nnode i = 3 ∨ nnode i = 4) :
    (nnode i = 3 → elmTypeAt nnode i = 2) ∧ (nnode i = 4 → elmTypeAt nnode i = 3) := by
  constructor <;> intro hi <;> cases i <;> simp [elmTypeAt, elmType, hi]

theorem outTags_length (n : ℕ) (tag : ℕ → ℕ) : (outTags n tag).length = max n 2 := by
  simp [outTags]

theorem outTags_get {n : ℕ} (tag : ℕ → ℕ) {j : ℕ} (hj : j < n) : (outTags n tag)[j]? = some (tag j : ℤ) := by
  rw [outTags, List.getElem?_append_left (by simpa using hj)]
  simp [hj]

theorem outTags_fill {n : ℕ} (tag : ℕ → ℕ) {j : ℕ} (h1 : n ≤ j) (h2 : j < 2) : (outTags n tag)[j]? = some (if n = 0 then 1 else 1 + (tag (n - 1) : ℤ)) := by
  rw [outTags, List.getElem?_append_right (by simpa using h1), List.getElem?_map, List.getElem?_range (by simp; omega)]
  rfl

/-- C32: for every mesh of triangles and quadrilaterals with at least one cell and few enough tags for the
reader's buffer, reading the written file succeeds and gives back the points, cells, boundary faces and tags.
(The reader's tag count is at least two because the writer adds tags up to that number: the last one plus one, or one.) -/
theorem C32_roundtrip (m : Mesh) (hlin : ∀ i, i < m.nelem → (m.nnode i = 3 ∨ m.nnode i = 4) ∧ m.nfael i = m.nnode i)
    (hne : 0 < m.nelem) (hb : m.nbtag ≤ 21) (hd : m.ndtag ≤ 21) :
    ∃ d, readGmsh (writeGmsh m) = some d ∧
      d.npoin = m.npoin ∧ d.nelem = m.nelem ∧ d.nbface = m.nbface ∧ d.nnofa = 2 ∧
      (∀ i, i < m.npoin → d.coords i = m.coords i) ∧
      (∀ i, i < m.nbface → (∀ j, j < 2 → d.bface i j = some (m.bface i j : ℤ)) ∧
        ∀ j, j < m.nbtag → d.bface i (2 + j) = some (m.btag i j : ℤ)) ∧
      (∀ i, i < m.nelem → d.nnode i = m.nnode i ∧ d.nfael i = m.nfael i ∧
        (∀ j, j < m.nnode i → d.inpoel i j = some (m.inpoel i j : ℤ)) ∧
        ∀ j, j < m.ndtag → d.volRegions i j = some (m.volRegions i j : ℤ)) ∧
      (0 < m.nbface → d.nbtag = max m.nbtag 2) ∧ d.ndtag = max m.ndtag 2 ∧
      (∀ i, i < m.nbface → ∀ j, m.nbtag ≤ j → j < 2 → d.bface i (2 + j) = some (if m.nbtag = 0 then 1 else 1 + (m.btag i (m.nbtag - 1) : ℤ))) ∧
      ∀ i, i < m.nelem → ∀ j, m.ndtag ≤ j → j < 2 → d.volRegions i j = some (if m.ndtag = 0 then 1 else 1 + (m.volRegions i (m.ndtag - 1) : ℤ)) := by
  let nodes : List (ℤ × ℝ × ℝ × ℝ) := (List.range m.npoin).map fun (ip : ℕ) => ((ip : ℤ) + 1, m.coords ip 0, m.coords ip 1, 0)
  let F : List (ℤ × Elm) := (List.range m.nbface).map fun (f : ℕ) => ((f : ℤ) + 1, ⟨1, outTags m.nbtag (m.btag f),
    [(m.bface f 0 : ℤ) + 1, (m.bface f 1 : ℤ) + 1]⟩)
  let E : List (ℤ × Elm) := (List.range m.nelem).map fun (i : ℕ) => ((m.nbface + i + 1 : ℤ), ⟨elmTypeAt m.nnode i,
    outTags m.ndtag (m.volRegions i), (List.range (m.nnode i)).map fun k => (m.inpoel i k : ℤ) + 1⟩)
  have hfile : writeGmsh m = fileOf [[Tok.word "$MeshFormat"], [Tok.real 2.2, Tok.int 0, Tok.int 8],
      [Tok.word "$EndMeshFormat"], [Tok.word "$Nodes"]] nodes (Tok.word "$EndNodes") (Tok.word "$Elements") (F ++ E)
      [Tok.word "$EndElements"] := by
    simp [writeGmsh, fileOf, nodes, F, E, List.map_map, Function.comp_def, add_comm (m.nbface : ℤ) (m.nelem : ℤ)]
  have hF : ∀ e ∈ F, e.2.typ = 1 ∧ e.2.Ok := by
    intro e he
    obtain ⟨f, _, rfl⟩ := List.mem_map.1 he
    refine ⟨rfl, rfl, ?_⟩
    simp only [outTags_length, typeInfo]
    simp; omega
  have hE : ∀ e ∈ E, (e.2.typ = 2 ∨ e.2.typ = 3) ∧ e.2.Ok := by
    intro e he
    obtain ⟨i, hi, rfl⟩ := List.mem_map.1 he
    obtain ⟨h34, _⟩ := hlin i (List.mem_range.1 hi)
    obtain ⟨h3, h4⟩ := elmTypeAt_lin h34
    unfold Elm.Ok
    simp only [outTags_length, List.length_map, List.length_range]
    rcases h34 with h | h
    · refine ⟨Or.inl (h3 h), ?_⟩
      rw [h3 h, h]; simp [typeInfo]; omega
    · refine ⟨Or.inr (h4 h), ?_⟩
      rw [h4 h, h]; simp [typeInfo]; omega
  have hEne : E ≠ [] := by
    intro h
    have := congrArg List.length h
    simp [E] at this; omega
  obtain ⟨d, hr, h1, h2, h3, h4, h5, h6, h7, h8, h9⟩ := C72_faces_first_partial (hdr := [[Tok.word "$MeshFormat"],
    [Tok.real 2.2, Tok.int 0, Tok.int 8], [Tok.word "$EndMeshFormat"], [Tok.word "$Nodes"]]) rfl nodes
    (Tok.word "$EndNodes") (Tok.word "$Elements") F E hF hE hEne [Tok.word "$EndElements"]
  refine ⟨d, by rw [hfile, hr], by simpa [nodes] using h1, by simpa [E] using h3, by simpa [F] using h2, h4, ?_, ?_, ?_, ?_, ?_, ?_, ?_⟩
  · intro i hi
    obtain ⟨a, b⟩ := h5 i ((i : ℤ) + 1, m.coords i 0, m.coords i 1, 0) (by simp [nodes, hi])
    funext k; fin_cases k
    · exact a
    · exact b
  · intro i hi
    obtain ⟨a, b⟩ := h6 i ((i : ℤ) + 1, ⟨1, outTags m.nbtag (m.btag i), [(m.bface i 0 : ℤ) + 1, (m.bface i 1 : ℤ) + 1]⟩)
      (by simp [F, hi])
    refine ⟨fun j hj => ?_, fun j hj => ?_⟩
    · rw [a j hj]
      rcases (show j = 0 ∨ j = 1 by omega) with rfl | rfl <;> simp
    · rw [b j (by simp only [outTags_length]; omega), outTags_get _ hj]
  · intro i hi
    obtain ⟨a, b, c, _, e⟩ := h7 i ((m.nbface + i + 1 : ℤ), ⟨elmTypeAt m.nnode i,
      outTags m.ndtag (m.volRegions i), (List.range (m.nnode i)).map fun k => (m.inpoel i k : ℤ) + 1⟩) (by simp [E, hi])
    simp only [List.length_map, List.length_range] at a b c e
    refine ⟨a, by rw [b, (hlin i hi).2], fun j hj => ?_, fun j hj => ?_⟩
    · rw [c j hj]; simp [hj]
    · rw [e j, outTags_get _ hj]
  · intro hnb
    rw [h8]
    refine maxTags_const ?_ ?_
    · intro e he
      simp only [F, List.map_map, List.mem_map, Function.comp_apply] at he
      obtain ⟨f, _, rfl⟩ := he
      exact outTags_length _ _
    · intro h
      have := congrArg List.length h
      simp [F] at this; omega
  · rw [h9]
    refine maxTags_const ?_ ?_
    · intro e he
      simp only [E, List.map_map, List.mem_map, Function.comp_apply] at he
      obtain ⟨f, _, rfl⟩ := he
      exact outTags_length _ _
    · intro h
      exact hEne (by simpa using h)
  · intro i hi j hj1 hj2
    obtain ⟨a, b⟩ := h6 i ((i : ℤ) + 1, ⟨1, outTags m.nbtag (m.btag i), [(m.bface i 0 : ℤ) + 1, (m.bface i 1 : ℤ) + 1]⟩)
      (by simp [F, hi])
    rw [b j (by simp only [outTags_length]; omega), outTags_fill _ hj1 hj2]
  · intro i hi j hj1 hj2
    obtain ⟨a, b, c, _, e⟩ := h7 i ((m.nbface + i + 1 : ℤ), ⟨elmTypeAt m.nnode i,
      outTags m.ndtag (m.volRegions i), (List.range (m.nnode i)).map fun k => (m.inpoel i k : ℤ) + 1⟩) (by simp [E, hi])
    simp only [List.length_map, List.length_range] at a b c e
    rw [e j, outTags_fill _ hj1 hj2]

/-- The hybrid example mesh satisfies the hypotheses. -/
example : ∃ d, readGmsh (writeGmsh exMesh) = some d ∧ d.nelem = 2 ∧ d.nbface = exMesh.nbface ∧
    d.inpoel 0 2 = some (exMesh.inpoel 0 2 : ℤ) := by
  obtain ⟨d, h, _, h3, h4, _, _, _, h5, _⟩ := C32_roundtrip exMesh
    (fun i hi => by
      have hi : i < 2 := hi
      rcases (show i = 0 ∨ i = 1 by omega) with rfl | rfl
      · exact ⟨Or.inr rfl, rfl⟩
      · exact ⟨Or.inl rfl, rfl⟩) (by show 0 < 2; decide) (by show 1 ≤ 21; decide) (by show 1 ≤ 21; decide)
  exact ⟨d, h, h3, h4, (h5 0 (by show 0 < 2; decide)).2.2.1 2 (by show 2 < 4; decide)⟩

/-- C32: a mesh without cells cannot be read back (the reader accesses the first cell's node count). -/
theorem C32_no_cells_refuted (m : Mesh) (h0 : m.nelem = 0) (hb : m.nbtag ≤ 21) : readGmsh (writeGmsh m) = none := by
  let nodes : List (ℤ × ℝ × ℝ × ℝ) := (List.range m.npoin).map fun (ip : ℕ) => ((ip : ℤ) + 1, m.coords ip 0, m.coords ip 1, 0)
  let F : List (ℤ × Elm) := (List.range m.nbface).map fun (f : ℕ) => ((f : ℤ) + 1, ⟨1, outTags m.nbtag (m.btag f),
    [(m.bface f 0 : ℤ) + 1, (m.bface f 1 : ℤ) + 1]⟩)
  have hfile : writeGmsh m = fileOf [[Tok.word "$MeshFormat"], [Tok.real 2.2, Tok.int 0, Tok.int 8],
      [Tok.word "$EndMeshFormat"], [Tok.word "$Nodes"]] nodes (Tok.word "$EndNodes") (Tok.word "$Elements") F
      [Tok.word "$EndElements"] := by
    simp [writeGmsh, fileOf, nodes, F, List.map_map, Function.comp_def, h0]
  have hF : ∀ e ∈ F, e.2.Ok := by
    intro e he
    obtain ⟨f, _, rfl⟩ := List.mem_map.1 he
    refine ⟨rfl, ?_⟩
    simp only [outTags_length, typeInfo]
    simp; omega
  rw [hfile, readGmsh_fileOf rfl nodes _ _ F hF, buildData, if_neg]
  unfold faceElms
  rw [List.filter_eq_self.2]
  · simp
  · intro e he
    obtain ⟨x, hx, rfl⟩ := List.mem_map.1 he
    obtain ⟨f, _, rfl⟩ := List.mem_map.1 hx
    rfl

/-- A triangle and one of its edges as boundary face. -/
def triElm : ℤ × Elm := (1, ⟨2, [7, 7], [1, 2, 3]⟩)

/-- An edge of the triangle. -/
def edgeElm : ℤ × Elm := (2, ⟨1, [5, 5], [1, 2]⟩)

/-- The nodes of the triangle. -/
def triNodes : List (ℤ × ℝ × ℝ × ℝ) := [(1, 0, 0, 0), (2, 1, 0, 0), (3, 0, 1, 0)]

/-- C72 fails for files listing a cell before a boundary face, which the format allows: the triangle's row is
taken for the boundary face, the face's row for the cell, which gets no vertices. -/
theorem C72_order_refuted (w1 w2 : Tok) (rest : List Tok) {hdr : List (List Tok)} (hh : hdr.length = 4) :
    ∃ d, readGmsh (fileOf hdr triNodes w1 w2 [triElm, edgeElm] rest) = some d ∧ d.nelem = 1 ∧ d.nnode 0 = 0 ∧
      d.bface 0 2 = some 3 := by
  rw [readGmsh_fileOf hh]
  · exact ⟨_, rfl, rfl, rfl, rfl⟩
  · intro e he
    simp only [List.mem_cons, List.not_mem_nil, or_false] at he
    rcases he with rfl | rfl <;> exact ⟨rfl, by decide⟩

/-- The same entries with the face first are read properly. -/
example (w1 w2 : Tok) (rest : List Tok) {hdr : List (List Tok)} (hh : hdr.length = 4) :
    ∃ d, readGmsh (fileOf hdr triNodes w1 w2 [edgeElm, triElm] rest) = some d ∧ d.nnode 0 = 3 ∧ d.inpoel 0 2 = some 2 := by
  obtain ⟨d, h, _, _, _, _, _, _, h7, _⟩ := C72_faces_first_partial hh triNodes w1 w2 [edgeElm] [triElm]
    (by intro e he; rw [List.mem_singleton] at he; subst he; exact ⟨rfl, rfl, by decide⟩)
    (by intro e he; rw [List.mem_singleton] at he; subst he; exact ⟨Or.inl rfl, rfl, by decide⟩) (by simp) rest
  obtain ⟨a, _, b, _⟩ := h7 0 triElm rfl
  exact ⟨d, h, a, b 2 (by decide)⟩

/-- C72 fails for node numbers that are not 1, 2, … in order: the numbers in the node section are discarded, so
a file numbering the same nodes differently is read as the same mesh. -/
theorem C72_node_numbers_refuted {hdr : List (List Tok)} (hh : hdr.length = 4) (w1 w2 : Tok) (rest : List Tok) :
    readGmsh (fileOf hdr [(3, 0, 0, 0), (1, 1, 0, 0), (2, 0, 1, 0)] w1 w2 [edgeElm, triElm] rest) =
    readGmsh (fileOf hdr triNodes w1 w2 [edgeElm, triElm] rest) := by
  have hok : ∀ e ∈ [edgeElm, triElm], e.2.Ok := by
    intro e he
    simp only [List.mem_cons, List.not_mem_nil, or_false] at he
    rcases he with rfl | rfl <;> exact ⟨rfl, by decide⟩
  rw [readGmsh_fileOf hh _ _ _ _ hok, readGmsh_fileOf hh _ _ _ _ hok]
  rfl

end Msh
end FVENS
