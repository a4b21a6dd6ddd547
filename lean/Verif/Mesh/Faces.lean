import Verif.Mesh.Host

/-!
# Face list and cell-to-face maps (C27, C71)
-/

namespace FVENS
namespace Msh

/-! ### Face creation as a list of events -/

/-- Creation of one face: the row of `intfac` and the local faces for which `elemface` is set. -/
structure Ev where
  face : Face
  keys : List (ℕ × ℕ)

/-- Setting `elemface` to `v` at some local faces. -/
def setKeys (ks : List (ℕ × ℕ)) (v : ℕ) (ef : ℕ → ℕ → Option ℕ) : ℕ → ℕ → Option ℕ :=
  ks.foldl (fun ef k => upd2 ef k.1 k.2 (some v)) ef

/-- Processing of one event. -/
def stepEv (s : (ℕ → ℕ → Option ℕ) × List Face) (ev : Ev) : (ℕ → ℕ → Option ℕ) × List Face :=
  (setKeys ev.keys s.2.length s.1, s.2 ++ [ev.face])

theorem setKeys_mem {ks : List (ℕ × ℕ)} {v : ℕ} {ef : ℕ → ℕ → Option ℕ} {x : ℕ × ℕ} (h : x ∈ ks) :
    setKeys ks v ef x.1 x.2 = some v := by
  induction ks using List.reverseRecOn with
  | nil => simp at h
  | append_singleton ks k ih =>
    rw [setKeys, List.foldl_append]
    simp only [List.foldl_cons, List.foldl_nil]
    by_cases hk : x = k
    · subst hk; exact upd2_same _ _ _ _
    · rw [upd2_ne _ _ hk]
      exact ih (by simpa [hk] using h)

theorem setKeys_not_mem {ks : List (ℕ × ℕ)} {v : ℕ} {ef : ℕ → ℕ → Option ℕ} {x : ℕ × ℕ} (h : x ∉ ks) :
    setKeys ks v ef x.1 x.2 = ef x.1 x.2 := by
  induction ks using List.reverseRecOn with
  | nil => rfl
  | append_singleton ks k ih =>
    rw [setKeys, List.foldl_append]
    simp only [List.foldl_cons, List.foldl_nil]
    simp only [List.mem_append, List.mem_singleton, not_or] at h
    rw [upd2_ne _ _ h.2]
    exact ih h.1

theorem runEv_faces (E : List Ev) (s : (ℕ → ℕ → Option ℕ) × List Face) :
    (E.foldl stepEv s).2 = s.2 ++ E.map Ev.face := by
  induction E generalizing s with
  | nil => simp
  | cons ev E ih => rw [List.foldl_cons, ih]; simp [stepEv]

theorem runEv_elemface (E : List Ev) (x : ℕ × ℕ) :
    (∀ k, (E.foldl stepEv ((fun _ _ => none), [])).1 x.1 x.2 = some k → ∃ h : k < E.length, x ∈ E[k].keys) ∧
    ((E.foldl stepEv ((fun _ _ => none), [])).1 x.1 x.2 = none → ∀ ev ∈ E, x ∉ ev.keys) := by
  induction E using List.reverseRecOn with
  | nil => simp
  | append_singleton E ev ih =>
    rw [List.foldl_append]
    simp only [List.foldl_cons, List.foldl_nil, stepEv]
    have hlen : (E.foldl stepEv ((fun _ _ => none), [])).2.length = E.length := by
      rw [runEv_faces]; simp
    rw [hlen]
    by_cases hx : x ∈ ev.keys
    · rw [setKeys_mem hx]
      refine ⟨fun k hk => ?_, fun h => by simp at h⟩
      obtain rfl : E.length = k := by simpa using hk
      exact ⟨by simp, by simpa using hx⟩
    · rw [setKeys_not_mem hx]
      refine ⟨fun k hk => ?_, fun h ev' hev' => ?_⟩
      · obtain ⟨h, hk⟩ := ih.1 k hk
        exact ⟨by simp; omega, by rw [List.getElem_append_left h]; exact hk⟩
      · rcases List.mem_append.1 hev' with h' | h'
        · exact ih.2 h ev' h'
        · simp at h'; subst h'; exact hx

/-! ### The three loops as events -/

variable (m : Mesh)

/-- Boundary face events. -/
def bEv (hosts : List (ℕ × ℕ)) (k : ℕ) : Ev :=
  ⟨⟨(hostAt hosts k).1, m.nelem + m.nconnface + k, m.bface k 0, m.bface k 1⟩, [hostAt hosts k]⟩

/-- Interior face event of local face `x`, if it creates one. -/
def iEv (e : ℕ → ℕ → Option ℕ) (x : ℕ × ℕ) : Option Ev :=
  (isInner m e x.1 x.2).map fun je =>
    ⟨⟨x.1, je, m.inpoel x.1 x.2, m.inpoel x.1 ((x.2 + 1) % m.nnode x.1)⟩,
     x :: ((List.range (m.nnode je)).filter fun jn =>
        m.inpoel x.1 ((x.2 + 1) % m.nnode x.1) = m.inpoel je jn).map fun jn => (je, jn)⟩

/-- Connectivity face events. -/
def cEv (ic : ℕ) : Ev :=
  ⟨⟨m.connface ic 0, m.nelem + ic, faceNodeI m (m.connface ic 0) (m.connface ic 1) 0,
    faceNodeI m (m.connface ic 0) (m.connface ic 1) 1⟩, [(m.connface ic 0, m.connface ic 1)]⟩

/-- `esuel` after the boundary loop. -/
def esuelB (hosts : List (ℕ × ℕ)) (e : ℕ → ℕ → Option ℕ) : ℕ → ℕ → Option ℕ :=
  forLt m.nbface e fun k e => upd2 e (hostAt hosts k).1 (hostAt hosts k).2 (some (m.nelem + m.nconnface + k))

/-- `esuel` after all loops. -/
def esuelC (hosts : List (ℕ × ℕ)) (e : ℕ → ℕ → Option ℕ) : ℕ → ℕ → Option ℕ :=
  forLt m.nconnface (esuelB m hosts e) fun ic e =>
    upd2 e (m.connface ic 0) (m.connface ic 1) (some (m.nelem + ic))

/-- All events in order. -/
def allEv (hosts : List (ℕ × ℕ)) (e : ℕ → ℕ → Option ℕ) : List Ev :=
  (List.range m.nbface).map (bEv m hosts) ++ (pairs m.nelem m.nnode).filterMap (iEv m (esuelB m hosts e))
    ++ (List.range m.nconnface).map (cEv m)

theorem faceConnectivity_eq {c : Csr} {e : ℕ → ℕ → Option ℕ} {s : FState}
    (h : faceConnectivity m c e = .ok s) : ∃ hosts, bfaceHosts m c = .ok hosts ∧
      s.esuel = esuelC m hosts e ∧
      (s.elemface, s.faces) = (allEv m hosts e).foldl stepEv ((fun _ _ => none), []) := by
  unfold faceConnectivity at h
  cases hh : bfaceHosts m c with
  | throws => rw [hh] at h; cases h
  | ub => rw [hh] at h; cases h
  | ok hosts =>
    rw [hh] at h
    simp only [BC.Res.ok.injEq] at h
    refine ⟨hosts, rfl, ?_⟩
    -- boundary loop
    have hB : ∀ n, let t := forLt n ⟨e, fun _ _ => none, []⟩ fun iface s => bfaceBody m iface (hostAt hosts iface) s
        t.esuel = (forLt n e fun k e => upd2 e (hostAt hosts k).1 (hostAt hosts k).2 (some (m.nelem + m.nconnface + k)))
        ∧ (t.elemface, t.faces) = ((List.range n).map (bEv m hosts)).foldl stepEv ((fun _ _ => none), []) := by
      intro n
      induction n with
      | zero => exact ⟨rfl, rfl⟩
      | succ n ih =>
        simp only at ih ⊢
        rw [forLt_succ, forLt_succ, List.range_succ, List.map_append, List.foldl_append, ← ih.2]
        have hlen : (forLt n ⟨e, fun _ _ => none, []⟩ fun iface s => bfaceBody m iface (hostAt hosts iface) s : FState).faces.length = n := by
          have := congrArg (fun z => z.2.length) ih.2
          simp only [runEv_faces] at this
          rw [this]; simp
        generalize (forLt n ⟨e, fun _ _ => none, []⟩ fun iface s => bfaceBody m iface (hostAt hosts iface) s : FState) = t at ih hlen ⊢
        refine ⟨by rw [← ih.1]; rfl, ?_⟩
        simp only [bfaceBody, List.map_cons, List.map_nil, List.foldl_cons, List.foldl_nil, stepEv, bEv,
          setKeys, hlen]
    obtain ⟨hB1, hB2⟩ := hB m.nbface
    generalize (forLt m.nbface ⟨e, fun _ _ => none, []⟩ fun iface s => bfaceBody m iface (hostAt hosts iface) s : FState) = tB at hB1 hB2 h
    -- interior loop
    have hI : ∀ P : List (ℕ × ℕ), let t := P.foldl (fun s x => innerBody m x.1 x.2 s) tB
        t.esuel = tB.esuel ∧
        (t.elemface, t.faces) = (P.filterMap (iEv m tB.esuel)).foldl stepEv (tB.elemface, tB.faces) := by
      intro P
      induction P using List.reverseRecOn with
      | nil => exact ⟨rfl, rfl⟩
      | append_singleton P x ih =>
        simp only at ih ⊢
        rw [List.foldl_append, List.filterMap_append, List.foldl_append, ← ih.2]
        generalize P.foldl (fun s x => innerBody m x.1 x.2 s) tB = t at ih ⊢
        simp only [List.foldl_cons, List.foldl_nil]
        unfold innerBody
        rw [ih.1]
        cases hin : isInner m tB.esuel x.1 x.2 with
        | none =>
          have : iEv m tB.esuel x = none := by simp [iEv, hin]
          rw [List.filterMap_cons_none this]
          exact ⟨ih.1, rfl⟩
        | some je =>
          have : iEv m tB.esuel x = some ⟨⟨x.1, je, m.inpoel x.1 x.2, m.inpoel x.1 ((x.2 + 1) % m.nnode x.1)⟩,
              x :: ((List.range (m.nnode je)).filter fun jn =>
                m.inpoel x.1 ((x.2 + 1) % m.nnode x.1) = m.inpoel je jn).map fun jn => (je, jn)⟩ := by
            simp only [iEv, hin, Option.map_some]
          rw [List.filterMap_cons_some this]
          refine ⟨rfl, ?_⟩
          simp only [List.filterMap_nil, List.foldl_cons, List.foldl_nil, stepEv, setKeys, List.foldl_map,
            forLt, foldl_ite]
    rw [forLt_forLt] at h
    obtain ⟨hI1, hI2⟩ := hI (pairs m.nelem m.nnode)
    generalize (pairs m.nelem m.nnode).foldl (fun s x => innerBody m x.1 x.2 s) tB = tI at hI1 hI2 h
    -- connectivity loop
    have hC : ∀ n, let t := forLt n tI fun ic s => connBody m ic s
        t.esuel = (forLt n tI.esuel fun ic e => upd2 e (m.connface ic 0) (m.connface ic 1) (some (m.nelem + ic)))
        ∧ (t.elemface, t.faces) = ((List.range n).map (cEv m)).foldl stepEv (tI.elemface, tI.faces) := by
      intro n
      induction n with
      | zero => exact ⟨rfl, rfl⟩
      | succ n ih =>
        simp only at ih ⊢
        rw [forLt_succ, forLt_succ, List.range_succ, List.map_append, List.foldl_append, ← ih.2]
        generalize (forLt n tI fun ic s => connBody m ic s) = t at ih ⊢
        exact ⟨by rw [← ih.1]; rfl, rfl⟩
    obtain ⟨hC1, hC2⟩ := hC m.nconnface
    rw [h] at hC1 hC2
    constructor
    · rw [hC1, hI1, hB1]; rfl
    · rw [hC2, hI2, hB2, allEv, List.foldl_append, List.foldl_append, hB1]
      rfl

/-! ### Interior faces -/

variable {m}

theorem isInner_eq_some {e : ℕ → ℕ → Option ℕ} {i f j : ℕ} :
    isInner m e i f = some j ↔ e i f = some j ∧ i < j ∧ j < m.nelem := by
  unfold isInner
  cases h : e i f with
  | none => simp
  | some k =>
    by_cases hk : i < k ∧ k < m.nelem
    · simp [hk]; rintro rfl; exact hk
    · simp [hk]; rintro rfl h1; by_contra h2; exact hk ⟨h1, by omega⟩

/-- A boundary face's host face is not shared with another cell. -/
theorem host_not_glued (hm : Lin m) {p q : ℕ} (hp : p < m.npoin) (hq : q < m.npoin) {x : ℕ × ℕ}
    (h : bfaceHost m (esup m) p q = .ok x) (y : ℕ × ℕ) : ¬ Glued m x y := by
  intro hg
  obtain ⟨h1, h2, h3⟩ := (C28_ok_iff hm hp hq x.1 x.2).1 h
  have he : edge m y = s(p, q) := by rw [← hg.2.2.2]; exact h3
  have : HasBoth m p q y.1 := by
    have hv : ∀ v ∈ edge m y, HasVertex m y.1 v := by
      intro v hv
      simp only [edge, Sym2.mem_iff] at hv
      rcases hv with rfl | rfl
      · exact ⟨hg.2.1.1, _, hg.2.1.2, rfl⟩
      · exact ⟨hg.2.1.1, _, hm.next_lt hg.2.1.1 _, rfl⟩
    exact ⟨hv p (by rw [he]; simp), hv q (by rw [he]; simp)⟩
  exact hg.2.2.1 ((h1 y.1).1 this).symm

theorem forLt_upd2 {n : ℕ} (key : ℕ → ℕ × ℕ) (val : ℕ → ℕ) (e : ℕ → ℕ → Option ℕ) (x : ℕ × ℕ) :
    ((∀ k, k < n → key k ≠ x) →
      (forLt n e fun k e => upd2 e (key k).1 (key k).2 (some (val k))) x.1 x.2 = e x.1 x.2) ∧
    ((∃ k, k < n ∧ key k = x) → ∃ k, k < n ∧ key k = x ∧
      (forLt n e fun k e => upd2 e (key k).1 (key k).2 (some (val k))) x.1 x.2 = some (val k)) := by
  induction n with
  | zero => simp [forLt_zero]
  | succ n ih =>
    rw [forLt_succ]
    by_cases hx : key n = x
    · refine ⟨fun h => absurd hx (h n (by omega)), fun _ => ⟨n, by omega, hx, ?_⟩⟩
      rw [hx]; exact upd2_same _ _ _ _
    · rw [upd2_ne _ _ (fun h => hx h.symm)]
      refine ⟨fun h => ih.1 (fun k hk => h k (by omega)), ?_⟩
      rintro ⟨k, hk, hkx⟩
      have hk' : k < n := by
        rcases Nat.lt_succ_iff_lt_or_eq.1 hk with h | rfl
        · exact h
        · exact absurd hkx hx
      obtain ⟨k', a, b, c⟩ := ih.2 ⟨k, hk', hkx⟩
      exact ⟨k', by omega, b, c⟩

/-- The boundary loop does not change which local faces are interior. -/
theorem isInner_esuelB (hm : Lin m) (hb : BfOk m) {hosts : List (ℕ × ℕ)}
    (hh : bfaceHosts m (esup m) = .ok hosts) (i f : ℕ) :
    isInner m (esuelB m hosts (esuel m (esup m))) i f = isInner m (esuel m (esup m)) i f := by
  obtain ⟨_, hk⟩ := bfaceHosts_ok hh
  have key := forLt_upd2 (n := m.nbface) (fun k => hostAt hosts k) (fun k => m.nelem + m.nconnface + k)
    (esuel m (esup m)) (i, f)
  by_cases hx : ∃ k, k < m.nbface ∧ hostAt hosts k = (i, f)
  · obtain ⟨k, hkn, hki, he⟩ := key.2 hx
    have hnone : esuel m (esup m) i f = none := by
      cases hes : esuel m (esup m) i f with
      | none => rfl
      | some j =>
        obtain ⟨g, hg⟩ := C26_sound hm hes
        have := hk k hkn
        rw [hki] at this
        exact absurd hg (host_not_glued hm (hb k hkn).1 (hb k hkn).2 this _)
    have he' : esuelB m hosts (esuel m (esup m)) i f = some (m.nelem + m.nconnface + k) := he
    unfold isInner
    rw [he', hnone]
    have : ¬ (i < m.nelem + m.nconnface + k ∧ m.nelem + m.nconnface + k < m.nelem) := by omega
    simp [this]
  · have he : esuelB m hosts (esuel m (esup m)) i f = esuel m (esup m) i f :=
      key.1 (fun k hk hki => hx ⟨k, hk, hki⟩)
    unfold isInner
    rw [he]

/-- The interior faces, in the order of the code. -/
def innerFaces (m : Mesh) : List Face :=
  (pairs m.nelem m.nnode).filterMap fun x => (isInner m (esuel m (esup m)) x.1 x.2).map fun j =>
    ⟨x.1, j, m.inpoel x.1 x.2, m.inpoel x.1 ((x.2 + 1) % m.nnode x.1)⟩

theorem pairs_nfael (hm : Lin m) : pairs m.nelem m.nfael = pairs m.nelem m.nnode := by
  unfold pairs
  apply List.flatMap_congr
  intro i hi
  rw [hm.nf i (by simpa using hi)]

theorem ninface_eq (hm : Lin m) : ninface m (esuel m (esup m)) = (innerFaces m).length := by
  unfold ninface innerFaces
  rw [forLt_forLt, pairs_nfael hm]
  have : ∀ (P : List (ℕ × ℕ)) (n : ℕ),
      P.foldl (fun s x => if (isInner m (esuel m (esup m)) x.1 x.2).isSome then s + 1 else s) n
      = n + (P.filterMap fun x => (isInner m (esuel m (esup m)) x.1 x.2).map fun j =>
        (⟨x.1, j, m.inpoel x.1 x.2, m.inpoel x.1 ((x.2 + 1) % m.nnode x.1)⟩ : Face)).length := by
    intro P
    induction P with
    | nil => simp
    | cons x P ih =>
      intro n
      rw [List.foldl_cons, ih]
      cases h : isInner m (esuel m (esup m)) x.1 x.2 with
      | none => simp [h]
      | some j => simp [h]; omega
  rw [this]; simp

theorem innerEv_faces (hm : Lin m) (hb : BfOk m) {hosts : List (ℕ × ℕ)}
    (hh : bfaceHosts m (esup m) = .ok hosts) :
    ((pairs m.nelem m.nnode).filterMap (iEv m (esuelB m hosts (esuel m (esup m))))).map Ev.face = innerFaces m := by
  rw [List.map_filterMap, innerFaces]
  congr 1
  funext x
  simp only [iEv, isInner_esuelB hm hb hh, Option.map_map]
  rfl

/-- Layout of the face list. -/
theorem topological_faces (hm : Lin m) (hb : BfOk m) {s : FState} (h : topological m = .ok s) :
    ∃ hosts, bfaceHosts m (esup m) = .ok hosts ∧ s.faces =
      ((List.range m.nbface).map fun k => ⟨(hostAt hosts k).1, m.nelem + m.nconnface + k, m.bface k 0, m.bface k 1⟩)
      ++ innerFaces m ++
      ((List.range m.nconnface).map fun ic => ⟨m.connface ic 0, m.nelem + ic,
        faceNodeI m (m.connface ic 0) (m.connface ic 1) 0, faceNodeI m (m.connface ic 0) (m.connface ic 1) 1⟩) := by
  obtain ⟨hosts, hh, _, hf⟩ := faceConnectivity_eq m h
  refine ⟨hosts, hh, ?_⟩
  have := congrArg Prod.snd hf
  rw [runEv_faces] at this
  simp only [List.nil_append, allEv, List.map_append, innerEv_faces hm hb hh, List.map_map] at this
  exact this

/-! ### C27 -/

/-- C27: the face list consists of three consecutive ranges; the first has one face per physical boundary
face, in order, with the unique cell containing both nodes on the left; the last has one face per
partition-interface record with its cell on the left and the nodes in that cell's order. The number of
faces is the announced total. -/
theorem C27_ranges (hm : Lin m) (hb : BfOk m) {s : FState} (h : topological m = .ok s) :
    s.faces.length = m.nbface + ninface m (esuel m (esup m)) + m.nconnface ∧
    (∀ k, k < m.nbface → ∃ e, (∀ i, HasBoth m (m.bface k 0) (m.bface k 1) i ↔ i = e) ∧
      s.faces[k]? = some ⟨e, m.nelem + m.nconnface + k, m.bface k 0, m.bface k 1⟩) ∧
    (∀ ic, ic < m.nconnface → s.faces[m.nbface + ninface m (esuel m (esup m)) + ic]? =
      some ⟨m.connface ic 0, m.nelem + ic,
        m.inpoel (m.connface ic 0) ((m.connface ic 1) % m.nnode (m.connface ic 0)),
        m.inpoel (m.connface ic 0) ((m.connface ic 1 + 1) % m.nnode (m.connface ic 0))⟩) := by
  obtain ⟨hosts, hh, hf⟩ := topological_faces hm hb h
  obtain ⟨_, hk⟩ := bfaceHosts_ok hh
  rw [ninface_eq hm, hf]
  refine ⟨by simp; omega, fun k hkn => ?_, fun ic hic => ?_⟩
  · obtain ⟨h1, _, _⟩ := (C28_ok_iff hm (hb k hkn).1 (hb k hkn).2 (hostAt hosts k).1 (hostAt hosts k).2).1 (hk k hkn)
    refine ⟨_, h1, ?_⟩
    rw [List.getElem?_append_left (by simp; omega), List.getElem?_append_left (by simpa using hkn)]
    simp [hkn]
  · rw [List.getElem?_append_right (by simp)]
    simp [hic, faceNodeI]

/-- C27: the middle range contains exactly the interior faces: one row for each pair of cells sharing a
face, the lower-numbered cell on the left and the nodes in its order. -/
theorem C27_interior (hm : Lin m) (hM : Manifold m) (hb : BfOk m) {s : FState} (h : topological m = .ok s) (F : Face) :
    F ∈ (s.faces.drop m.nbface).take (ninface m (esuel m (esup m))) ↔
      ∃ f g j i, Glued m (i, f) (j, g) ∧ i < j ∧
        F = ⟨i, j, m.inpoel i f, m.inpoel i ((f + 1) % m.nnode i)⟩ := by
  obtain ⟨hosts, hh, hf⟩ := topological_faces hm hb h
  have : (s.faces.drop m.nbface).take (ninface m (esuel m (esup m))) = innerFaces m := by
    rw [ninface_eq hm, hf, List.append_assoc, List.drop_left' (by simp), List.take_left' rfl]
  rw [this]
  simp only [innerFaces, List.mem_filterMap, mem_pairs, Option.map_eq_some_iff, isInner_eq_some]
  constructor
  · rintro ⟨⟨i, f⟩, ⟨hi, hf⟩, j, ⟨he, hij, hj⟩, rfl⟩
    obtain ⟨g, hg⟩ := C26_sound hm he
    exact ⟨f, g, j, i, hg, hij, rfl⟩
  · rintro ⟨f, g, j, i, hg, hij, rfl⟩
    exact ⟨(i, f), hg.1, j, ⟨(C26_adjacency_exact hm hM i f j).2 ⟨g, hg⟩, hij, hg.2.1.1⟩, rfl⟩

theorem innerFaces_nodup (hm : Lin m) : (innerFaces m).Nodup := by
  unfold innerFaces
  refine List.Nodup.filterMap ?_ (pairs_nodup _ _)
  rintro ⟨i, f⟩ ⟨i', f'⟩ F hF hF'
  simp only [Option.mem_def, Option.map_eq_some_iff, isInner_eq_some] at hF hF'
  obtain ⟨j, ⟨he, _⟩, rfl⟩ := hF
  obtain ⟨j', ⟨he', _⟩, heq⟩ := hF'
  simp only [Face.mk.injEq] at heq
  obtain ⟨rfl, rfl, h0, _⟩ := heq
  obtain ⟨g, hg⟩ := C26_sound hm he
  obtain ⟨g', hg'⟩ := C26_sound hm he'
  have : f' = f := hm.inj _ hg.1.1 _ _ hg'.1.2 hg.1.2 h0
  rw [this]

/-- C27: every interior face appears exactly once. -/
theorem C27_interior_once (hm : Lin m) (hM : Manifold m) (hb : BfOk m) {s : FState} (h : topological m = .ok s)
    {i f j g : ℕ} (hg : Glued m (i, f) (j, g)) (hij : i < j) :
    ∃! k, m.nbface ≤ k ∧ k < m.nbface + ninface m (esuel m (esup m)) ∧
      s.faces[k]? = some ⟨i, j, m.inpoel i f, m.inpoel i ((f + 1) % m.nnode i)⟩ := by
  have hmem := (C27_interior hm hM hb h ⟨i, j, m.inpoel i f, m.inpoel i ((f + 1) % m.nnode i)⟩).2
    ⟨f, g, j, i, hg, hij, rfl⟩
  obtain ⟨hosts, hh, hf⟩ := topological_faces hm hb h
  have hsl : (s.faces.drop m.nbface).take (ninface m (esuel m (esup m))) = innerFaces m := by
    rw [ninface_eq hm, hf, List.append_assoc, List.drop_left' (by simp), List.take_left' rfl]
  rw [hsl] at hmem
  have hidx : ∀ k, k < (innerFaces m).length → s.faces[m.nbface + k]? = (innerFaces m)[k]? := by
    intro k hk
    rw [hf, List.append_assoc, List.getElem?_append_right (by simp), List.getElem?_append_left (by simpa using hk)]
    simp
  rw [ninface_eq hm]
  obtain ⟨k, hk, hkF⟩ := List.mem_iff_getElem.1 hmem
  refine ⟨m.nbface + k, ⟨by omega, by omega, ?_⟩, ?_⟩
  · rw [hidx k hk, List.getElem?_eq_getElem hk, hkF]
  · rintro l ⟨h1, h2, h3⟩
    obtain ⟨d, rfl⟩ := Nat.exists_eq_add_of_le h1
    have hd : d < (innerFaces m).length := by omega
    rw [hidx d hd, List.getElem?_eq_getElem hd, Option.some.injEq, ← hkF] at h3
    rw [(List.Nodup.getElem_inj_iff (innerFaces_nodup hm)).1 h3]

/-- The hypotheses hold for the hybrid mesh: five boundary faces and one interior face with the square on
the left. -/
example : ∃ s, topological exMesh = .ok s ∧ s.faces.length = 6 ∧ s.faces[5]? = some ⟨0, 1, 1, 2⟩ ∧
    s.faces[1]? = some ⟨1, 3, 4, 1⟩ := by
  rw [topological, faceConnectivity, exMesh_hosts]
  exact ⟨_, rfl, by decide +kernel, by decide +kernel, by decide +kernel⟩

end Msh
end FVENS
