import Verif.Par.Transport
import Mathlib.Data.Finset.Sort

/-!
# Interface exchange (C40)

The local parts of src/linalg/tracevector.cpp: neighbour lists, buffers, and the matching of received values to
interface faces. A rank's interface records are a list of pairs (`connface(·,2)`: other rank, `connface(·,4)`: number of
the face in the global mesh). The `nvars` values on a face are one element of an arbitrary type `V`.
-/

namespace FVENS
namespace Par

open Msh

/-- Interface records of one rank, in the order of its interface faces. -/
abbrev Tab := List (ℕ × ℕ)

/-- Record of interface face `ic`. -/
def Tab.row (tab : Tab) (ic : ℕ) : ℕ × ℕ := tab.getD ic (0, 0)

/-- `nbdranks`, src/linalg/tracevector.cpp:42-48 (a `std::set` copied out in increasing order). -/
def nbdRanks (tab : Tab) : List ℕ := (tab.map Prod.fst).toFinset.sort (· ≤ ·)

/-- `sharedfacemap(ic,0)`, src/linalg/tracevector.cpp:59-75: first position of the face's rank in `nbdranks`. -/
def rankIndex (tab : Tab) (ic : ℕ) : ℕ := (nbdRanks tab).idxOf (tab.row ic).1

/-- `sharedfaces[i]`, src/linalg/tracevector.cpp:77-81. -/
def sharedFaces (tab : Tab) (i : ℕ) : List ℕ := (List.range tab.length).filter fun ic => rankIndex tab ic = i

/-- `myGFaceIndex[i]`, src/linalg/tracevector.cpp:118-122. -/
def myIndices (tab : Tab) (i : ℕ) : List ℕ := (sharedFaces tab i).map fun ic => (tab.row ic).2

/-- Loop body of src/linalg/tracevector.cpp:149-172: position of the face's number among the received ones. -/
def otherStep (tab : Tab) (idx : ℕ → List ℕ) (o : ℕ → ℕ → Option ℕ) (ic : ℕ) : ℕ → ℕ → Option ℕ :=
  match (List.range (sharedFaces tab (rankIndex tab ic)).length).find?
      (fun k => (idx (rankIndex tab ic))[k]? == some (tab.row ic).2) with
  | some k => upd2 o (rankIndex tab ic) k (some ic)
  | none => o

/-- `sharedfacesother`, src/linalg/tracevector.cpp:102-105, 149-172 (`none` is −1). -/
def sharedOther (tab : Tab) (idx : ℕ → List ℕ) : ℕ → ℕ → Option ℕ :=
  (List.range tab.length).foldl (otherStep tab idx) fun _ _ => none

/-- A sequence of guarded array writes; fails if some target or source is undefined. -/
def applyWrites {V ι : Type*} (W : ι → Option (ℕ × V)) (L : List ι) (a : ℕ → V) : Option (ℕ → V) :=
  L.foldlM (fun a x => (W x).map fun p => Function.update a p.1 p.2) a

/-- `updateSharedFacesEnd`, src/linalg/tracevector.cpp:293-308, as a sequence of writes over pairs (rank position, face
position) in the order of the nested loops. An unset entry of `sharedfacesother` (index −1) and a missing received
value are failures. -/
def endUpdate {V : Type*} (tab : Tab) (fstart : ℕ) (idx : ℕ → List ℕ) (recv : ℕ → List V) (right : ℕ → V) : Option (ℕ → V) :=
  applyWrites (fun x : ℕ × ℕ => (sharedOther tab idx x.1 x.2).bind fun ic => (recv x.1)[x.2]?.map fun v => (fstart + ic, v))
    ((List.range (nbdRanks tab).length).flatMap fun i => (List.range (sharedFaces tab i).length).map fun k => (i, k)) right

theorem applyWrites_spec {V ι : Type*} (W : ι → Option (ℕ × V)) (L : List ι) (a : ℕ → V) (hs : ∀ x ∈ L, (W x).isSome)
    (hnd : L.Nodup) (hinj : ∀ x ∈ L, ∀ y ∈ L, ∀ b v w, W x = some (b, v) → W y = some (b, w) → x = y) :
    ∃ a', applyWrites W L a = some a' ∧ (∀ x ∈ L, ∀ b v, W x = some (b, v) → a' b = v) ∧
      ∀ b, (∀ x ∈ L, ∀ v, W x ≠ some (b, v)) → a' b = a b := by
  induction L using List.reverseRecOn with
  | nil => exact ⟨a, rfl, by simp, fun _ _ => rfl⟩
  | append_singleton L x ih =>
    obtain ⟨hnd1, -, hnd2⟩ := List.nodup_append.1 hnd
    obtain ⟨a', h1, h2, h3⟩ := ih (fun y hy => hs y (by simp [hy])) hnd1
      (fun y hy z hz => hinj y (by simp [hy]) z (by simp [hz]))
    obtain ⟨⟨b, v⟩, hW⟩ := Option.isSome_iff_exists.1 (hs x (by simp))
    refine ⟨Function.update a' b v, ?_, ?_, ?_⟩
    · unfold applyWrites at h1 ⊢
      rw [List.foldlM_append, h1]
      simp [hW]
    · intro y hy b' v' hy'
      rw [List.mem_append, List.mem_singleton] at hy
      rcases hy with hy | rfl
      · by_cases hb : b' = b
        · subst hb
          have := hinj y (by simp [hy]) x (by simp) _ _ _ hy' hW
          exact absurd this (hnd2 y hy x (by simp))
        · rw [Function.update_of_ne hb]; exact h2 y hy b' v' hy'
      · rw [hW] at hy'; cases hy'; simp
    · intro b' hb'
      have : b' ≠ b := fun e => hb' x (by simp) v (by rw [hW, e])
      rw [Function.update_of_ne this]
      exact h3 b' fun y hy => hb' y (by simp [hy])

section tab
variable {tab : Tab}

theorem mem_nbdRanks {q : ℕ} : q ∈ nbdRanks tab ↔ ∃ g, (q, g) ∈ tab := by simp [nbdRanks]

theorem nbdRanks_nodup : (nbdRanks tab).Nodup := Finset.sort_nodup _ _

theorem row_mem {ic : ℕ} (h : ic < tab.length) : tab.row ic ∈ tab := by
  simp [Tab.row, List.getD, h]

theorem row_eq {ic : ℕ} {x : ℕ × ℕ} (h : tab[ic]? = some x) : tab.row ic = x := by simp [Tab.row, List.getD, h]

theorem rankIndex_lt {ic : ℕ} (h : ic < tab.length) : rankIndex tab ic < (nbdRanks tab).length :=
  List.idxOf_lt_length_iff.2 (mem_nbdRanks.2 ⟨(tab.row ic).2, row_mem h⟩)

theorem nbd_rankIndex {ic : ℕ} (h : ic < tab.length) : (nbdRanks tab)[rankIndex tab ic]? = some (tab.row ic).1 := by
  rw [List.getElem?_eq_getElem (rankIndex_lt h)]
  simp [rankIndex]

theorem rankIndex_eq_idxOf {ic q : ℕ} (h : ic < tab.length) (hq : q ∈ nbdRanks tab) :
    rankIndex tab ic = (nbdRanks tab).idxOf q ↔ (tab.row ic).1 = q := by
  constructor
  · intro he
    have h1 := nbd_rankIndex h
    rw [he, List.getElem?_eq_getElem (List.idxOf_lt_length_iff.2 hq)] at h1
    simpa using h1.symm
  · rintro rfl; rfl

theorem mem_sharedFaces {ic i : ℕ} : ic ∈ sharedFaces tab i ↔ ic < tab.length ∧ rankIndex tab ic = i := by
  simp [sharedFaces]

theorem sharedFaces_nodup (i : ℕ) : (sharedFaces tab i).Nodup := List.nodup_range.filter _

theorem row_inj (hnd : tab.Nodup) {ic jc : ℕ} (h : ic < tab.length) (h' : jc < tab.length) (he : tab.row ic = tab.row jc) : ic = jc := by
  have e1 : tab.row ic = tab[ic] := by simp [Tab.row, List.getD, h]
  have e2 : tab.row jc = tab[jc] := by simp [Tab.row, List.getD, h']
  exact (List.Nodup.getElem_inj_iff hnd).1 (e1.symm.trans (he.trans e2))

theorem myIndices_nodup (hnd : tab.Nodup) (i : ℕ) : (myIndices tab i).Nodup := by
  refine List.Nodup.map_on ?_ (sharedFaces_nodup i)
  intro x hx y hy he
  obtain ⟨hx1, hx2⟩ := mem_sharedFaces.1 hx
  obtain ⟨hy1, hy2⟩ := mem_sharedFaces.1 hy
  refine row_inj hnd hx1 hy1 (Prod.ext ?_ he)
  have h1 := nbd_rankIndex hx1
  have h2 := nbd_rankIndex hy1
  rw [hx2] at h1; rw [hy2, h1] at h2
  exact Option.some.inj h2

theorem mem_myIndices {q g : ℕ} (hq : q ∈ nbdRanks tab) : g ∈ myIndices tab ((nbdRanks tab).idxOf q) ↔ (q, g) ∈ tab := by
  simp only [myIndices, List.mem_map, mem_sharedFaces]
  constructor
  · rintro ⟨ic, ⟨h1, h2⟩, rfl⟩
    rw [rankIndex_eq_idxOf h1 hq] at h2
    rw [← h2]; exact row_mem h1
  · intro h
    obtain ⟨ic, hlt, he⟩ := List.mem_iff_getElem.1 h
    have hr : tab.row ic = (q, g) := row_eq (by rw [List.getElem?_eq_getElem hlt, he])
    exact ⟨ic, ⟨hlt, (rankIndex_eq_idxOf hlt hq).2 (by rw [hr])⟩, by rw [hr]⟩

/-- What the received numbers must satisfy: for each neighbour a reordering of the own ones. -/
def IdxOk (tab : Tab) (idx : ℕ → List ℕ) : Prop :=
  ∀ i, i < (nbdRanks tab).length → (idx i).Perm (myIndices tab i)

theorem sharedOther_spec (hnd : tab.Nodup) {idx : ℕ → List ℕ} (hidx : IdxOk tab idx) {i k ic : ℕ} :
    sharedOther tab idx i k = some ic ↔ ic < tab.length ∧ rankIndex tab ic = i ∧ (idx i)[k]? = some (tab.row ic).2 := by
  have hlen : ∀ i, i < (nbdRanks tab).length → (idx i).length = (sharedFaces tab i).length := fun i hi => by
    rw [(hidx i hi).length_eq]; simp [myIndices]
  have hnodup : ∀ i, i < (nbdRanks tab).length → (idx i).Nodup := fun i hi =>
    (hidx i hi).nodup_iff.2 (myIndices_nodup hnd i)
  have key : ∀ n, n ≤ tab.length → ∀ i k ic, (List.range n).foldl (otherStep tab idx) (fun _ _ => none) i k = some ic ↔
      ic < n ∧ rankIndex tab ic = i ∧ (idx i)[k]? = some (tab.row ic).2 := by
    intro n
    induction n with
    | zero => intro _ i k ic; simp
    | succ n ih =>
      intro hn i k ic
      rw [List.range_succ, List.foldl_append, List.foldl_cons, List.foldl_nil]
      have hI := rankIndex_lt (show n < tab.length by omega)
      have hmem : (tab.row n).2 ∈ idx (rankIndex tab n) := by
        rw [(hidx _ hI).mem_iff]
        exact List.mem_map.2 ⟨n, mem_sharedFaces.2 ⟨by omega, rfl⟩, rfl⟩
      obtain ⟨k0, hk0, hk0'⟩ := List.mem_iff_getElem.1 hmem
      have hk0? : (idx (rankIndex tab n))[k0]? = some (tab.row n).2 := by rw [List.getElem?_eq_getElem hk0, hk0']
      have huniq : ∀ k, (idx (rankIndex tab n))[k]? = some (tab.row n).2 → k = k0 := by
        intro k hk
        obtain ⟨h1, h2⟩ := List.getElem?_eq_some_iff.1 hk
        exact (List.Nodup.getElem_inj_iff (hnodup _ hI)).1 (h2.trans hk0'.symm)
      have hfind : (List.range (sharedFaces tab (rankIndex tab n)).length).find?
          (fun k => (idx (rankIndex tab n))[k]? == some (tab.row n).2) = some k0 := by
        cases hf : (List.range (sharedFaces tab (rankIndex tab n)).length).find?
          (fun k => (idx (rankIndex tab n))[k]? == some (tab.row n).2) with
        | none =>
          rw [List.find?_eq_none] at hf
          have := hf k0 (by rw [List.mem_range, ← hlen _ hI]; exact hk0)
          simp [hk0?] at this
        | some k =>
          have := List.find?_some hf
          rw [huniq k (by simpa using this)]
      have hstep : ∀ o, otherStep tab idx o n = upd2 o (rankIndex tab n) k0 (some n) := fun o => by
        unfold otherStep; rw [hfind]
      rw [hstep]
      by_cases hik : i = rankIndex tab n ∧ k = k0
      · obtain ⟨rfl, rfl⟩ := hik
        simp only [upd2, and_self, if_true, Option.some.injEq]
        constructor
        · rintro rfl; exact ⟨by omega, rfl, hk0?⟩
        · rintro ⟨h1, h2, h3⟩
          rw [hk0?, Option.some.injEq] at h3
          refine row_inj hnd (by omega) (by omega) (Prod.ext ?_ h3)
          have e1 := nbd_rankIndex (show ic < tab.length by omega)
          have e2 := nbd_rankIndex (show n < tab.length by omega)
          rw [h2, e2] at e1
          exact Option.some.inj e1
      · have : upd2 ((List.range n).foldl (otherStep tab idx) fun _ _ => none) (rankIndex tab n) k0 (some n) i k =
            (List.range n).foldl (otherStep tab idx) (fun _ _ => none) i k := by
          unfold upd2; rw [if_neg hik]
        rw [this, ih (by omega)]
        constructor
        · rintro ⟨h1, h2⟩; exact ⟨by omega, h2⟩
        · rintro ⟨h1, h2, h3⟩
          refine ⟨?_, h2, h3⟩
          by_contra hge
          obtain rfl : ic = n := by omega
          exact hik ⟨h2.symm, huniq k (h2 ▸ h3)⟩
  exact key tab.length le_rfl i k ic

/-- Effect of `updateSharedFacesEnd`: the value found at the position of a face's number among the received numbers is
stored for that face, and nothing else changes. -/
theorem endUpdate_spec {V : Type*} (hnd : tab.Nodup) {idx : ℕ → List ℕ} (hidx : IdxOk tab idx) {recv : ℕ → List V}
    (hrecv : ∀ i, i < (nbdRanks tab).length → (recv i).length = (idx i).length) (fstart : ℕ) (right : ℕ → V) :
    ∃ right', endUpdate tab fstart idx recv right = some right' ∧
      (∀ ic, ic < tab.length → ∀ (k : ℕ) (v : V), (idx (rankIndex tab ic))[k]? = some (tab.row ic).2 → (recv (rankIndex tab ic))[k]? = some v →
        right' (fstart + ic) = v) ∧
      ∀ a, (∀ ic, ic < tab.length → a ≠ fstart + ic) → right' a = right a := by
  have hlen : ∀ i, i < (nbdRanks tab).length → (idx i).length = (sharedFaces tab i).length := fun i hi => by
    rw [(hidx i hi).length_eq]; simp [myIndices]
  have hnodup : ∀ i, i < (nbdRanks tab).length → (idx i).Nodup := fun i hi =>
    (hidx i hi).nodup_iff.2 (myIndices_nodup hnd i)
  have hmemL : ∀ x : ℕ × ℕ, x ∈ ((List.range (nbdRanks tab).length).flatMap fun i =>
      (List.range (sharedFaces tab i).length).map fun k => (i, k)) ↔
      x.1 < (nbdRanks tab).length ∧ x.2 < (sharedFaces tab x.1).length := by
    rintro ⟨i, k⟩
    simp only [List.mem_flatMap, List.mem_map, List.mem_range, Prod.mk.injEq]
    constructor
    · rintro ⟨a, ha, b, hb, rfl, rfl⟩; exact ⟨ha, hb⟩
    · rintro ⟨ha, hb⟩; exact ⟨i, ha, k, hb, rfl, rfl⟩
  have hW : ∀ (x : ℕ × ℕ) b (v : V), ((sharedOther tab idx x.1 x.2).bind fun ic => (recv x.1)[x.2]?.map fun v => (fstart + ic, v)) = some (b, v) ↔
      ∃ ic, ic < tab.length ∧ rankIndex tab ic = x.1 ∧ (idx x.1)[x.2]? = some (tab.row ic).2 ∧ (recv x.1)[x.2]? = some v ∧ b = fstart + ic := by
    intro x b v
    simp only [Option.bind_eq_some_iff, sharedOther_spec hnd hidx, Option.map_eq_some_iff, Prod.mk.injEq]
    constructor
    · rintro ⟨ic, ⟨h1, h2, h3⟩, w, h4, h5, rfl⟩; exact ⟨ic, h1, h2, h3, h4, h5.symm⟩
    · rintro ⟨ic, h1, h2, h3, h4, h5⟩; exact ⟨ic, ⟨h1, h2, h3⟩, v, h4, h5.symm, rfl⟩
  have p := applyWrites_spec
    (fun x : ℕ × ℕ => (sharedOther tab idx x.1 x.2).bind fun ic => (recv x.1)[x.2]?.map fun v => (fstart + ic, v))
    ((List.range (nbdRanks tab).length).flatMap fun i => (List.range (sharedFaces tab i).length).map fun k => (i, k)) right
  have p1 := p (by
    intro x hx
    obtain ⟨h1, h2⟩ := (hmemL x).1 hx
    have hlt : x.2 < (idx x.1).length := by rw [hlen _ h1]; exact h2
    have hmem : (idx x.1)[x.2] ∈ myIndices tab x.1 := (hidx _ h1).mem_iff.1 (List.getElem_mem hlt)
    obtain ⟨ic, hic, hic'⟩ := List.mem_map.1 hmem
    obtain ⟨j1, j2⟩ := mem_sharedFaces.1 hic
    have hlt' : x.2 < (recv x.1).length := by rw [hrecv _ h1]; exact hlt
    exact Option.isSome_iff_exists.2 ⟨_, (hW x _ _).2 ⟨ic, j1, j2, by rw [List.getElem?_eq_getElem hlt, hic'],
      List.getElem?_eq_getElem hlt', rfl⟩⟩)
  have p2 := p1 (by
    refine List.nodup_flatMap.2 ⟨fun i _ => List.nodup_range.map fun a b h => (Prod.mk.inj h).2, ?_⟩
    refine List.nodup_range.pairwise_of_forall_ne ?_
    intro a _ b _ hab
    simp only [Function.onFun, List.Disjoint, List.mem_map]
    rintro y ⟨k, _, rfl⟩ ⟨k', _, he⟩
    exact hab (Prod.mk.inj he).1.symm)
  obtain ⟨r', e1, e2, e3⟩ := p2 (by
    intro x hx y hy b v w h1 h2
    obtain ⟨ic, a1, a2, a3, a4, a5⟩ := (hW _ _ _).1 h1
    obtain ⟨jc, b1, b2, b3, b4, b5⟩ := (hW _ _ _).1 h2
    obtain rfl : ic = jc := by omega
    have hxy : x.1 = y.1 := a2.symm.trans b2
    refine Prod.ext hxy ?_
    rw [← hxy] at b3
    obtain ⟨c1, c2⟩ := List.getElem?_eq_some_iff.1 a3
    obtain ⟨d1, d2⟩ := List.getElem?_eq_some_iff.1 b3
    exact (List.Nodup.getElem_inj_iff (hnodup _ ((hmemL x).1 hx).1)).1 (c2.trans d2.symm))
  refine ⟨r', e1, ?_, ?_⟩
  · intro ic hic k v hk hv
    have hI := rankIndex_lt hic
    refine e2 (rankIndex tab ic, k) ((hmemL _).2 ⟨hI, ?_⟩) _ _ ((hW _ _ _).2 ⟨ic, hic, rfl, hk, hv, rfl⟩)
    rw [← hlen _ hI]; exact (List.getElem?_eq_some_iff.1 hk).1
  · intro a ha
    refine e3 a fun x _ v hx => ?_
    obtain ⟨ic, h1, -, -, -, h5⟩ := (hW _ _ _).1 hx
    exact ha ic h1 h5

end tab

/-! ### All ranks together -/

/-- The ranks' interface records, index of the first interface face in the face list (`gConnBFaceStart`), number of phases (the index exchange and
`phases - 1` value exchanges), and the left values of each rank at each exchange, which may depend on whatever the rank received
before. -/
structure Setup (V : Type*) where
  n : ℕ
  tab : ℕ → Tab
  fstart : ℕ → ℕ
  phases : ℕ
  left : ℕ → ℕ → (ℕ → ℕ → Option (List ℕ ⊕ List V)) → ℕ → V

/-- The communication program: phase 0 sends face numbers (src/linalg/tracevector.cpp:118-128), later phases send left values
(246-265). -/
def Setup.prog {V : Type*} (S : Setup V) : Prog (List ℕ ⊕ List V) where
  n := S.n
  nb r := nbdRanks (S.tab r)
  phases := S.phases
  content r t ib d :=
    let i := (nbdRanks (S.tab r)).idxOf d
    if t = 0 then .inl (myIndices (S.tab r) i)
    else .inr ((sharedFaces (S.tab r) i).map fun ic => S.left r t ib (S.fstart r + ic))

/-- Face numbers received from the `i`-th neighbour. -/
def idxOfInbox {V : Type*} (nb : List ℕ) (ib : ℕ → ℕ → Option (List ℕ ⊕ List V)) (i : ℕ) : List ℕ :=
  match nb[i]?.bind (ib 0) with
  | some (.inl l) => l
  | _ => []

/-- Values received from the `i`-th neighbour in phase `t`. -/
def valsOfInbox {V : Type*} (nb : List ℕ) (ib : ℕ → ℕ → Option (List ℕ ⊕ List V)) (t i : ℕ) : List V :=
  match nb[i]?.bind (ib t) with
  | some (.inr l) => l
  | _ => []

/-- The right values of rank `r` after exchange `t`. -/
def Setup.after {V : Type*} (S : Setup V) (c : Config (List ℕ ⊕ List V)) (r t : ℕ) (right : ℕ → V) : Option (ℕ → V) :=
  endUpdate (S.tab r) (S.fstart r) (idxOfInbox (nbdRanks (S.tab r)) (c.rank r).inbox)
    (valsOfInbox (nbdRanks (S.tab r)) (c.rank r).inbox t) right

/-- Interface records agree between the ranks: each is distinct, names another existing rank, and has its
counterpart there. -/
structure SymTab (n : ℕ) (tab : ℕ → Tab) : Prop where
  nodup : ∀ r, (tab r).Nodup
  self : ∀ r g, (r, g) ∉ tab r
  sym : ∀ r q g, (q, g) ∈ tab r → (r, g) ∈ tab q
  lt : ∀ r q g, (q, g) ∈ tab r → q < n

section exchange
variable {V : Type*} {S : Setup V}

theorem SymTab.nb_sym (h : SymTab S.n S.tab) (r s : ℕ) (hs : s ∈ S.prog.nb r) : r ∈ S.prog.nb s := by
  obtain ⟨g, hg⟩ := mem_nbdRanks.1 hs
  exact mem_nbdRanks.2 ⟨g, h.sym r s g hg⟩

theorem SymTab.nb_self (h : SymTab S.n S.tab) (r : ℕ) : r ∉ S.prog.nb r := fun hr => by
  obtain ⟨g, hg⟩ := mem_nbdRanks.1 hr
  exact h.self r g hg

/-- C40: for all numbers of ranks, all interface tables that agree between ranks, all left values and every
interleaving of sends and deliveries: when rank `r` has completed exchange `t`, the right value of each of its
interface faces is the left value the other rank had at that exchange for the same face; nothing else is
overwritten. -/
theorem C40_exchange (h : SymTab S.n S.tab) {c : Config (List ℕ ⊕ List V)} (hc : Reach S.prog c) {r t : ℕ} (ht : 1 ≤ t)
    (hdone : Completed c r t) (right : ℕ → V) :
    ∃ right', S.after c r t right = some right' ∧
      (∀ ic q g, (S.tab r)[ic]? = some (q, g) → ∃ jc, (S.tab q)[jc]? = some (r, g) ∧
        right' (S.fstart r + ic) = S.left q t (before t (c.rank q).inbox) (S.fstart q + jc)) ∧
      ∀ a, (∀ ic, ic < (S.tab r).length → a ≠ S.fstart r + ic) → right' a = right a := by
  have hnd : ∀ r, (S.prog.nb r).Nodup := fun r => nbdRanks_nodup
  have h0done : Completed c r 0 := by rcases hdone with h | ⟨h, _⟩ <;> exact Or.inl (by omega)
  have hin0 := fun {s} hs => inbox_eq hnd h.nb_self h.nb_sym hc h0done (s := s) hs
  have hint := fun {s} hs => inbox_eq hnd h.nb_self h.nb_sym hc hdone (s := s) hs
  set nb := nbdRanks (S.tab r) with hnb
  have hidx : ∀ i (hi : i < nb.length), idxOfInbox nb (c.rank r).inbox i =
      myIndices (S.tab nb[i]) ((nbdRanks (S.tab nb[i])).idxOf r) := by
    intro i hi
    have := hin0 (s := nb[i]) (List.getElem_mem hi)
    simp [idxOfInbox, hi, this, Setup.prog]
  have hval : ∀ i (hi : i < nb.length), valsOfInbox nb (c.rank r).inbox t i =
      (sharedFaces (S.tab nb[i]) ((nbdRanks (S.tab nb[i])).idxOf r)).map fun ic =>
        S.left nb[i] t (before t (c.rank nb[i]).inbox) (S.fstart nb[i] + ic) := by
    intro i hi
    have := hint (s := nb[i]) (List.getElem_mem hi)
    have ht0 : t ≠ 0 := by omega
    simp [valsOfInbox, hi, this, Setup.prog, ht0]
  have hidxOk : IdxOk (S.tab r) (idxOfInbox nb (c.rank r).inbox) := by
    intro i hi
    rw [← hnb] at hi
    rw [hidx i hi]
    have hq : nb[i] ∈ nbdRanks (S.tab r) := List.getElem_mem hi
    have hr : r ∈ nbdRanks (S.tab nb[i]) := h.nb_sym r _ hq
    have hi' : (nbdRanks (S.tab r)).idxOf nb[i] = i := by rw [← hnb]; exact List.Nodup.idxOf_getElem (nbdRanks_nodup) i hi
    refine (List.perm_ext_iff_of_nodup (myIndices_nodup (h.nodup _) _) (myIndices_nodup (h.nodup _) _)).2 fun g => ?_
    rw [mem_myIndices hr]
    have := mem_myIndices (g := g) hq
    rw [hi'] at this
    rw [this]
    exact ⟨h.sym _ _ _, h.sym _ _ _⟩
  obtain ⟨right', e1, e2, e3⟩ := endUpdate_spec (h.nodup r) hidxOk
    (recv := valsOfInbox nb (c.rank r).inbox t) (fun i hi => by
      rw [← hnb] at hi
      rw [hidx i hi, hval i hi]; simp [myIndices]) (S.fstart r) right
  refine ⟨right', e1, ?_, e3⟩
  intro ic q g hic
  have hlt : ic < (S.tab r).length := (List.getElem?_eq_some_iff.1 hic).1
  have hrow := row_eq hic
  have hI := rankIndex_lt hlt
  have hqI : nb[rankIndex (S.tab r) ic]? = some q := by rw [hnb, nbd_rankIndex hlt, hrow]
  obtain ⟨_, hqI'⟩ := List.getElem?_eq_some_iff.1 hqI
  have hmem : (r, g) ∈ S.tab q := h.sym r q g (List.mem_of_getElem? hic)
  have hrq : r ∈ nbdRanks (S.tab q) := mem_nbdRanks.2 ⟨g, hmem⟩
  have hg : g ∈ myIndices (S.tab q) ((nbdRanks (S.tab q)).idxOf r) := (mem_myIndices hrq).2 hmem
  obtain ⟨k, hk, hk'⟩ := List.mem_iff_getElem.1 hg
  have hk2 : k < (sharedFaces (S.tab q) ((nbdRanks (S.tab q)).idxOf r)).length := by simpa [myIndices] using hk
  set jc := (sharedFaces (S.tab q) ((nbdRanks (S.tab q)).idxOf r))[k] with hjc
  have hjm : jc ∈ sharedFaces (S.tab q) ((nbdRanks (S.tab q)).idxOf r) := List.getElem_mem hk2
  obtain ⟨hj1, hj2⟩ := mem_sharedFaces.1 hjm
  have hj3 : ((S.tab q).row jc).2 = g := by rw [← hk']; simp [myIndices, hjc]
  have hj4 : (S.tab q).row jc = (r, g) := Prod.ext ((rankIndex_eq_idxOf hj1 hrq).1 hj2) hj3
  refine ⟨jc, ?_, ?_⟩
  · rw [List.getElem?_eq_getElem hj1]
    simpa [Tab.row, List.getD, hj1] using hj4
  · refine e2 ic hlt k _ ?_ ?_
    · rw [hidx _ hI, hrow]
      simp only [hqI']
      rw [List.getElem?_eq_getElem hk, hk']
    · rw [hval _ hI]
      simp only [hqI']
      rw [List.getElem?_map, List.getElem?_eq_getElem hk2]; rfl

/-- C40: on interface tables that agree, the exchanges cannot get stuck. -/
theorem C40_progress (h : SymTab S.n S.tab) {c : Config (List ℕ ⊕ List V)} (hc : Reach S.prog c) {r : ℕ} (hr : r < S.n)
    (hnot : ¬ Done S.prog c r) : ∃ c', Step S.prog c c' :=
  C40_no_deadlock (fun r => nbdRanks_nodup) h.nb_self h.nb_sym
    (fun r _ s hs => by obtain ⟨g, hg⟩ := mem_nbdRanks.1 hs; exact h.lt r s g hg) hc hr hnot

/-- C40: from every reachable state all ranks can finish, and since every step lowers the remaining work
(`C40_terminates`) and no unfinished state is stuck (`C40_progress`), every maximal execution does. -/
theorem C40_finishes (h : SymTab S.n S.tab) {c : Config (List ℕ ⊕ List V)} (hc : Reach S.prog c) :
    ∃ c', Reach S.prog c' ∧ ∀ r, r < S.n → Done S.prog c' r := by
  generalize hw : ((List.range S.prog.n).map (work S.prog c)).sum = w
  induction w using Nat.strong_induction_on generalizing c with
  | _ w ih =>
    by_cases hall : ∀ r, r < S.n → Done S.prog c r
    · exact ⟨c, hc, hall⟩
    · push Not at hall
      obtain ⟨r, hr, hn⟩ := hall
      obtain ⟨c', hs⟩ := C40_progress h hc hr hn
      exact ih _ (by rw [← hw]; exact C40_terminates hs) (hc.step hs) rfl

theorem C40_completes (h : SymTab S.n S.tab) : ∃ c, Reach S.prog c ∧ ∀ r, r < S.n → Done S.prog c r :=
  C40_finishes h Reach.start

end exchange

end Par
end FVENS
