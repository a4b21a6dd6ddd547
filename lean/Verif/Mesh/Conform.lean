import Verif.Mesh.Faces
import Mathlib.Algebra.BigOperators.Group.List.Basic
import Mathlib.Algebra.BigOperators.Group.Finset.Basic
import Mathlib.Tactic.Abel

/-!
# Conforming meshes: every cell side belongs to exactly one face (C71, basis of C22 and C43)
-/

namespace FVENS
namespace Msh

variable {m : Mesh}

/-- The local face named by a partition-interface record. -/
def connKey (m : Mesh) (ic : ℕ) : ℕ × ℕ := (m.connface ic 0, m.connface ic 1)

/-- A conforming, consistently oriented (sub)mesh: at most two cells at an edge, which traverse it in
opposite directions; every boundary face is an edge of a cell, in the cell's direction; interface records
name local faces; and every local face is exactly one of: shared with a cell, a boundary face, an
interface face. -/
structure Conforming (m : Mesh) : Prop where
  lin : Lin m
  manifold : Manifold m
  opposite : ∀ x y, Glued m x y → m.inpoel y.1 y.2 = m.inpoel x.1 ((x.2 + 1) % m.nnode x.1)
  bf : ∀ k, k < m.nbface → ∃ x, IsFace m x ∧ m.bface k 0 = m.inpoel x.1 x.2 ∧
    m.bface k 1 = m.inpoel x.1 ((x.2 + 1) % m.nnode x.1)
  bfDistinct : ∀ k l, k < m.nbface → l < m.nbface →
    s(m.bface k 0, m.bface k 1) = s(m.bface l 0, m.bface l 1) → k = l
  cf : ∀ ic, ic < m.nconnface → IsFace m (connKey m ic)
  cfDistinct : ∀ ic jc, ic < m.nconnface → jc < m.nconnface → connKey m ic = connKey m jc → ic = jc
  cfNotGlued : ∀ ic, ic < m.nconnface → ∀ y, ¬ Glued m (connKey m ic) y
  cfNotBf : ∀ ic k, ic < m.nconnface → k < m.nbface →
    edge m (connKey m ic) ≠ s(m.bface k 0, m.bface k 1)
  cover : ∀ x, IsFace m x → (∃ y, Glued m x y) ∨
    (∃ k, k < m.nbface ∧ edge m x = s(m.bface k 0, m.bface k 1)) ∨ ∃ ic, ic < m.nconnface ∧ connKey m ic = x

theorem Conforming.bfOk (h : Conforming m) : BfOk m := by
  intro k hk
  obtain ⟨x, hx, h0, h1⟩ := h.bf k hk
  rw [h0, h1]
  exact ⟨h.lin.lt _ hx.1 _ hx.2, h.lin.lt _ hx.1 _ (h.lin.next_lt hx.1 _)⟩

/-- Local face `x` lies on face `F`: same edge, and the cell is one of the two of the face. -/
def OnFace (m : Mesh) (x : ℕ × ℕ) (F : Face) : Prop :=
  s(F.n0, F.n1) = edge m x ∧ (F.left = x.1 ∨ F.right = x.1)

theorem host_edge (hm : Lin m) (hb : BfOk m) {hosts : List (ℕ × ℕ)} (hh : bfaceHosts m (esup m) = .ok hosts)
    {k : ℕ} (hk : k < m.nbface) :
    IsFace m (hostAt hosts k) ∧ edge m (hostAt hosts k) = s(m.bface k 0, m.bface k 1) := by
  obtain ⟨_, h⟩ := bfaceHosts_ok hh
  obtain ⟨h1, h2, h3⟩ := (C28_ok_iff hm (hb k hk).1 (hb k hk).2 (hostAt hosts k).1 (hostAt hosts k).2).1 (h k hk)
  exact ⟨⟨((h1 _).2 rfl).1.1, h2⟩, h3⟩

/-- The host's nodes are those of the boundary face, in order. -/
theorem host_nodes (hc : Conforming m) {hosts : List (ℕ × ℕ)} (hh : bfaceHosts m (esup m) = .ok hosts)
    {k : ℕ} (hk : k < m.nbface) :
    m.bface k 0 = m.inpoel (hostAt hosts k).1 (hostAt hosts k).2 ∧
    m.bface k 1 = m.inpoel (hostAt hosts k).1 (((hostAt hosts k).2 + 1) % m.nnode (hostAt hosts k).1) := by
  obtain ⟨hf, he⟩ := host_edge hc.lin hc.bfOk hh hk
  obtain ⟨x, hx, h0, h1⟩ := hc.bf k hk
  have hex : edge m x = s(m.bface k 0, m.bface k 1) := by rw [h0, h1]; rfl
  have hcell : x.1 = (hostAt hosts k).1 := by
    by_contra hne
    obtain ⟨_, h⟩ := bfaceHosts_ok hh
    exact host_not_glued hc.lin (hc.bfOk k hk).1 (hc.bfOk k hk).2 (h k hk) x
      ⟨hf, hx, fun h => hne h.symm, he.trans hex.symm⟩
  have hxh : x = hostAt hosts k := by
    refine Prod.ext hcell ?_
    have h2 := hf.2
    rw [← hcell] at h2
    refine hc.lin.edge_inj hx.1 hx.2 h2 ?_
    show edge m x = edge m (x.1, (hostAt hosts k).2)
    rw [hcell]; exact hex.trans he.symm
  rw [← hxh]; exact ⟨h0, h1⟩

theorem eq_of_edge (hm : Lin m) {x y : ℕ × ℕ} (hx : IsFace m x) (hy : IsFace m y) (hc : x.1 = y.1)
    (he : edge m x = edge m y) : x = y := by
  refine Prod.ext hc ?_
  have h2 := hy.2
  rw [← hc] at h2
  refine hm.edge_inj hx.1 hx.2 h2 ?_
  show edge m x = edge m (x.1, y.2)
  rw [hc]; exact he

/-- The keys of an interior face event are the two coinciding local faces. -/
theorem iEv_keys (hc : Conforming m) {e : ℕ → ℕ → Option ℕ} (he : ∀ i f, isInner m e i f = isInner m (esuel m (esup m)) i f)
    {y : ℕ × ℕ} {ev : Ev} (h : iEv m e y = some ev) :
    ∃ z, Glued m y z ∧ y.1 < z.1 ∧
      ev.face = ⟨y.1, z.1, m.inpoel y.1 y.2, m.inpoel y.1 ((y.2 + 1) % m.nnode y.1)⟩ ∧
      ∀ x, x ∈ ev.keys ↔ x = y ∨ x = z := by
  simp only [iEv, Option.map_eq_some_iff, he, isInner_eq_some] at h
  obtain ⟨j, ⟨hes, hlt, hj⟩, rfl⟩ := h
  obtain ⟨g, hg⟩ := C26_sound hc.lin hes
  have hop := hc.opposite _ _ hg
  refine ⟨(j, g), hg, hlt, rfl, fun x => ?_⟩
  simp only [List.mem_cons, List.mem_map, List.mem_filter, List.mem_range, decide_eq_true_eq]
  refine or_congr Iff.rfl ⟨?_, ?_⟩
  · rintro ⟨jn, ⟨hjn, hn⟩, rfl⟩
    simp only at hop
    rw [← hop] at hn
    have : g = jn := hc.lin.inj j hj _ _ hg.2.1.2 hjn hn
    rw [this]
  · rintro rfl
    exact ⟨g, ⟨hg.2.1.2, hop.symm⟩, rfl⟩

/-- In a conforming mesh, the keys of an event are exactly the local faces lying on its face. -/
theorem mem_keys_iff (hc : Conforming m) {hosts : List (ℕ × ℕ)} (hh : bfaceHosts m (esup m) = .ok hosts)
    {ev : Ev} (hev : ev ∈ allEv m hosts (esuel m (esup m))) {x : ℕ × ℕ} (hx : IsFace m x) :
    x ∈ ev.keys ↔ OnFace m x ev.face := by
  have hm := hc.lin
  simp only [allEv, List.mem_append, List.mem_map, List.mem_range, List.mem_filterMap] at hev
  rcases hev with (⟨k, hk, rfl⟩ | ⟨y, hy, hev⟩) | ⟨ic, hic, rfl⟩
  · obtain ⟨hf, he⟩ := host_edge hm hc.bfOk hh hk
    simp only [bEv, List.mem_singleton, OnFace]
    constructor
    · rintro rfl; exact ⟨he.symm, Or.inl rfl⟩
    · rintro ⟨h1, h2 | h2⟩
      · exact eq_of_edge hm hx hf h2.symm (h1.symm.trans he.symm)
      · have := hx.1; omega
  · obtain ⟨z, hz, hlt, hface, hkeys⟩ := iEv_keys hc (isInner_esuelB hm hc.bfOk hh) hev
    rw [hkeys, hface]
    simp only [OnFace]
    constructor
    · rintro (rfl | rfl)
      · exact ⟨rfl, Or.inl rfl⟩
      · exact ⟨hz.2.2.2, Or.inr rfl⟩
    · rintro ⟨h1, h2 | h2⟩
      · exact Or.inl (eq_of_edge hm hx hz.1 h2.symm h1.symm)
      · refine Or.inr (eq_of_edge hm hx hz.2.1 h2.symm ?_)
        rw [← hz.2.2.2]; exact h1.symm
  · have hf := hc.cf ic hic
    have he : s(faceNodeI m (m.connface ic 0) (m.connface ic 1) 0, faceNodeI m (m.connface ic 0) (m.connface ic 1) 1)
        = edge m (connKey m ic) := by
      have h2 : m.connface ic 1 < m.nnode (m.connface ic 0) := hf.2
      rw [faceNodeI_zero m h2]; rfl
    simp only [cEv, List.mem_singleton, OnFace]
    constructor
    · rintro rfl; exact ⟨he, Or.inl rfl⟩
    · rintro ⟨h1, h2 | h2⟩
      · exact eq_of_edge hm hx hf h2.symm (h1.symm.trans he)
      · have := hx.1; omega

/-- No local face is a key of two events. -/
theorem keys_disjoint (hc : Conforming m) {hosts : List (ℕ × ℕ)} (hh : bfaceHosts m (esup m) = .ok hosts) :
    (allEv m hosts (esuel m (esup m))).Pairwise fun a b => ∀ x, x ∈ a.keys → x ∉ b.keys := by
  have hm := hc.lin
  have hin := isInner_esuelB hm hc.bfOk hh
  obtain ⟨_, hk⟩ := bfaceHosts_ok hh
  unfold allEv
  rw [List.pairwise_append, List.pairwise_append, List.pairwise_map, List.pairwise_map, List.pairwise_filterMap]
  refine ⟨⟨?_, ?_, ?_⟩, ?_, ?_⟩
  · refine (List.nodup_range (n := m.nbface)).pairwise_of_forall_ne ?_
    intro k hk1 l hl1 hne x hx hx'
    simp only [List.mem_range] at hk1 hl1
    simp only [bEv, List.mem_singleton] at hx hx'
    have h1 := (host_edge hm hc.bfOk hh hk1).2
    have h2 := (host_edge hm hc.bfOk hh hl1).2
    rw [← hx] at h1; rw [← hx'] at h2
    exact hne (hc.bfDistinct k l hk1 hl1 (h1.symm.trans h2))
  · refine (pairs_nodup _ _).pairwise_of_forall_ne ?_
    intro y _ y' _ hne ev hev ev' hev' x hx hx'
    obtain ⟨z, hz, hlt, _, hkeys⟩ := iEv_keys hc hin hev
    obtain ⟨z', hz', hlt', _, hkeys'⟩ := iEv_keys hc hin hev'
    rw [hkeys] at hx; rw [hkeys'] at hx'
    rcases hx with rfl | rfl <;> rcases hx' with h | h
    · exact hne h
    · rw [h] at hz hlt
      have := hc.manifold _ _ _ hz hz'.symm
      rw [this] at hlt; omega
    · rw [h] at hz hlt
      have := hc.manifold _ _ _ hz.symm hz'
      rw [this] at hlt; omega
    · rw [h] at hz
      exact hne (hc.manifold _ _ _ hz.symm hz'.symm)
  · intro a ha b hb x hx hx'
    simp only [List.mem_map, List.mem_range, List.mem_filterMap] at ha hb
    obtain ⟨k, hkn, rfl⟩ := ha
    obtain ⟨y, _, hev⟩ := hb
    obtain ⟨z, hz, _, _, hkeys⟩ := iEv_keys hc hin hev
    simp only [bEv, List.mem_singleton] at hx
    rw [hkeys] at hx'
    have hng := host_not_glued hm (hc.bfOk k hkn).1 (hc.bfOk k hkn).2 (hk k hkn)
    rw [← hx] at hng
    rcases hx' with rfl | rfl
    · exact hng _ hz
    · exact hng _ hz.symm
  · refine (List.nodup_range (n := m.nconnface)).pairwise_of_forall_ne ?_
    intro k hk1 l hl1 hne x hx hx'
    simp only [List.mem_range] at hk1 hl1
    simp only [cEv, List.mem_singleton] at hx hx'
    exact hne (hc.cfDistinct k l hk1 hl1 (hx.symm.trans hx'))
  · intro a ha b hb x hx hx'
    simp only [List.mem_append, List.mem_map, List.mem_range, List.mem_filterMap] at ha hb
    obtain ⟨ic, hic, rfl⟩ := hb
    simp only [cEv, List.mem_singleton] at hx'
    rcases ha with ⟨k, hkn, rfl⟩ | ⟨y, _, hev⟩
    · simp only [bEv, List.mem_singleton] at hx
      have := (host_edge hm hc.bfOk hh hkn).2
      rw [← hx, hx'] at this
      exact hc.cfNotBf ic k hic hkn this
    · obtain ⟨z, hz, _, _, hkeys⟩ := iEv_keys hc hin hev
      rw [hkeys] at hx
      rcases hx with rfl | rfl
      · rw [hx'] at hz; exact hc.cfNotGlued ic hic _ hz
      · rw [hx'] at hz; exact hc.cfNotGlued ic hic _ hz.symm

/-- Every local face is a key of some event. -/
theorem exists_key (hc : Conforming m) {hosts : List (ℕ × ℕ)} (hh : bfaceHosts m (esup m) = .ok hosts)
    {x : ℕ × ℕ} (hx : IsFace m x) : ∃ ev ∈ allEv m hosts (esuel m (esup m)), x ∈ ev.keys := by
  have hm := hc.lin
  have hin := isInner_esuelB hm hc.bfOk hh
  have inner : ∀ y z, Glued m y z → y.1 < z.1 →
      ∃ ev ∈ allEv m hosts (esuel m (esup m)), y ∈ ev.keys ∧ z ∈ ev.keys := by
    intro y z hg hlt
    have hs : isInner m (esuelB m hosts (esuel m (esup m))) y.1 y.2 = some z.1 := by
      rw [hin, isInner_eq_some]
      exact ⟨(C26_adjacency_exact hm hc.manifold _ _ _).2 ⟨z.2, hg⟩, hlt, hg.2.1.1⟩
    have hsome : (iEv m (esuelB m hosts (esuel m (esup m))) y).isSome := by simp [iEv, hs]
    obtain ⟨ev, hev⟩ := Option.isSome_iff_exists.1 hsome
    obtain ⟨z', hz', _, _, hkeys⟩ := iEv_keys hc hin hev
    rw [hc.manifold _ _ _ hz' hg] at hkeys
    refine ⟨ev, ?_, (hkeys y).2 (Or.inl rfl), (hkeys z).2 (Or.inr rfl)⟩
    simp only [allEv, List.mem_append, List.mem_filterMap]
    exact Or.inl (Or.inr ⟨y, mem_pairs.2 hg.1, hev⟩)
  rcases hc.cover x hx with ⟨y, hy⟩ | ⟨k, hk, he⟩ | ⟨ic, hic, hk⟩
  · rcases Nat.lt_or_gt_of_ne hy.2.2.1 with h | h
    · obtain ⟨ev, h1, h2, _⟩ := inner x y hy h; exact ⟨ev, h1, h2⟩
    · obtain ⟨ev, h1, _, h2⟩ := inner y x hy.symm h; exact ⟨ev, h1, h2⟩
  · refine ⟨bEv m hosts k, ?_, ?_⟩
    · simp only [allEv, List.mem_append, List.mem_map, List.mem_range]
      exact Or.inl (Or.inl ⟨k, hk, rfl⟩)
    · simp only [bEv, List.mem_singleton]
      obtain ⟨hf, he'⟩ := host_edge hm hc.bfOk hh hk
      obtain ⟨_, hok⟩ := bfaceHosts_ok hh
      by_contra hne
      by_cases hcell : x.1 = (hostAt hosts k).1
      · exact hne (eq_of_edge hm hx hf hcell (he.trans he'.symm))
      · exact host_not_glued hm (hc.bfOk k hk).1 (hc.bfOk k hk).2 (hok k hk) x
          ⟨hf, hx, fun h => hcell h.symm, he'.trans he.symm⟩
  · refine ⟨cEv m ic, ?_, ?_⟩
    · simp only [allEv, List.mem_append, List.mem_map, List.mem_range]
      exact Or.inr ⟨ic, hic, rfl⟩
    · simp only [cEv, List.mem_singleton]; exact hk.symm

/-! ### C71 -/

/-- C71: in a conforming mesh the cell-to-face map is defined for every local face and gives the unique
face of the face list that has the same edge and the cell on one of its sides. -/
theorem C71_elemface (hc : Conforming m) {s : FState} (h : topological m = .ok s) {x : ℕ × ℕ} (hx : IsFace m x) :
    (∃ k, s.elemface x.1 x.2 = some k) ∧
    ∀ k, s.elemface x.1 x.2 = some k ↔ ∃ F, s.faces[k]? = some F ∧ OnFace m x F := by
  obtain ⟨hosts, hh, _, hE⟩ := faceConnectivity_eq m h
  have hef : s.elemface = ((allEv m hosts (esuel m (esup m))).foldl stepEv ((fun _ _ => none), [])).1 :=
    congrArg Prod.fst hE
  have hfa : s.faces = (allEv m hosts (esuel m (esup m))).map Ev.face := by
    have := congrArg Prod.snd hE
    rw [runEv_faces] at this
    simpa using this
  obtain ⟨r1, r2⟩ := runEv_elemface (allEv m hosts (esuel m (esup m))) x
  rw [← hef] at r1 r2
  obtain ⟨ev, hev, hxe⟩ := exists_key hc hh hx
  have hex : ∃ k, s.elemface x.1 x.2 = some k := by
    cases hs : s.elemface x.1 x.2 with
    | none => exact absurd hxe (r2 hs ev hev)
    | some k => exact ⟨k, rfl⟩
  have hpw := keys_disjoint hc hh
  have huniq : ∀ k l (hk : k < (allEv m hosts (esuel m (esup m))).length)
      (hl : l < (allEv m hosts (esuel m (esup m))).length),
      x ∈ (allEv m hosts (esuel m (esup m)))[k].keys → x ∈ (allEv m hosts (esuel m (esup m)))[l].keys → k = l := by
    intro k l hk hl h1 h2
    rw [List.pairwise_iff_getElem] at hpw
    rcases lt_trichotomy k l with hkl | hkl | hkl
    · exact absurd h2 (hpw k l hk hl hkl x h1)
    · exact hkl
    · exact absurd h1 (hpw l k hl hk hkl x h2)
  refine ⟨hex, fun k => ⟨fun hk => ?_, ?_⟩⟩
  · obtain ⟨hlt, hmem⟩ := r1 k hk
    refine ⟨(allEv m hosts (esuel m (esup m)))[k].face, ?_, (mem_keys_iff hc hh (List.getElem_mem hlt) hx).1 hmem⟩
    rw [hfa]; simp [hlt]
  · rintro ⟨F, hF, hon⟩
    rw [hfa, List.getElem?_map, Option.map_eq_some_iff] at hF
    obtain ⟨ev', hev', rfl⟩ := hF
    obtain ⟨hlt, rfl⟩ := List.getElem?_eq_some_iff.1 hev'
    have hmem := (mem_keys_iff hc hh (List.getElem_mem hlt) hx).2 hon
    obtain ⟨l, hl⟩ := hex
    obtain ⟨hlt', hmem'⟩ := r1 l hl
    rw [huniq k l hlt hlt' hmem hmem']; exact hl

/-- C71: after face construction the recorded neighbour of a local face is the cell (or ghost index) on the
other side of its face. -/
theorem C71_neighbour (hc : Conforming m) {s : FState} (h : topological m = .ok s) {x : ℕ × ℕ} (hx : IsFace m x)
    {k : ℕ} {F : Face} (hF : s.faces[k]? = some F) (hon : OnFace m x F) :
    (F.left = x.1 → s.esuel x.1 x.2 = some F.right) ∧ (F.right = x.1 → s.esuel x.1 x.2 = some F.left) := by
  have hm := hc.lin
  obtain ⟨hosts, hh, hes, hE⟩ := faceConnectivity_eq m h
  have hfa : s.faces = (allEv m hosts (esuel m (esup m))).map Ev.face := by
    have := congrArg Prod.snd hE
    rw [runEv_faces] at this
    simpa using this
  rw [hfa, List.getElem?_map, Option.map_eq_some_iff] at hF
  obtain ⟨ev, hev, rfl⟩ := hF
  have hevm := List.mem_of_getElem? hev
  have hmem := (mem_keys_iff hc hh hevm hx).2 hon
  have hCk := forLt_upd2 (n := m.nconnface) (connKey m) (fun ic => m.nelem + ic)
    (esuelB m hosts (esuel m (esup m))) x
  have hBk := forLt_upd2 (n := m.nbface) (fun k => hostAt hosts k) (fun k => m.nelem + m.nconnface + k)
    (esuel m (esup m)) x
  have hes' : s.esuel x.1 x.2 = (forLt m.nconnface (esuelB m hosts (esuel m (esup m))) fun ic e =>
    upd2 e (connKey m ic).1 (connKey m ic).2 (some (m.nelem + ic))) x.1 x.2 := by rw [hes]; rfl
  obtain ⟨_, hhost⟩ := bfaceHosts_ok hh
  rw [hes']
  simp only [allEv, List.mem_append, List.mem_map, List.mem_range, List.mem_filterMap] at hevm
  rcases hevm with (⟨k, hk, rfl⟩ | ⟨y, hy, hev⟩) | ⟨ic, hic, rfl⟩
  · simp only [bEv, List.mem_singleton] at hmem
    subst hmem
    have he := host_edge hm hc.bfOk hh hk
    rw [hCk.1 (fun ic hic hk' => hc.cfNotBf ic k hic hk (by rw [hk']; exact he.2))]
    obtain ⟨k', hk', heq, hval⟩ := hBk.2 ⟨k, hk, rfl⟩
    have he' := host_edge hm hc.bfOk hh hk'
    rw [heq] at he'
    obtain rfl := hc.bfDistinct k k' hk hk' (he.2.symm.trans he'.2)
    refine ⟨fun _ => hval, fun hr => ?_⟩
    simp only [bEv] at hr
    have := hx.1; omega
  · obtain ⟨z, hz, hlt, hface, hkeys⟩ := iEv_keys hc (isInner_esuelB hm hc.bfOk hh) hev
    have hgl : ∃ w, Glued m x w := by
      rcases (hkeys x).1 hmem with rfl | rfl
      · exact ⟨z, hz⟩
      · exact ⟨y, hz.symm⟩
    obtain ⟨w, hw⟩ := hgl
    rw [hCk.1 (fun ic hic hk' => hc.cfNotGlued ic hic w (by rw [hk']; exact hw))]
    have : esuelB m hosts (esuel m (esup m)) x.1 x.2 = esuel m (esup m) x.1 x.2 :=
      hBk.1 (fun k hk hk' => host_not_glued hm (hc.bfOk k hk).1 (hc.bfOk k hk).2 (hhost k hk) w (by
        rw [hk']; exact hw))
    rw [this, hface]
    rcases (hkeys x).1 hmem with rfl | rfl
    · refine ⟨fun _ => (C26_adjacency_exact hm hc.manifold _ _ _).2 ⟨z.2, hz⟩, fun hr => ?_⟩
      simp only at hr; omega
    · refine ⟨fun hr => ?_, fun _ => (C26_adjacency_exact hm hc.manifold _ _ _).2 ⟨y.2, hz.symm⟩⟩
      simp only at hr; omega
  · simp only [cEv, List.mem_singleton] at hmem
    obtain ⟨ic', hic', heq, hval⟩ := hCk.2 ⟨ic, hic, hmem.symm⟩
    obtain rfl := hc.cfDistinct ic ic' hic hic' (by rw [heq, hmem]; rfl)
    refine ⟨fun _ => hval, fun hr => ?_⟩
    simp only [cEv] at hr
    have := hx.1; omega

/-! ### Sums over the faces of a cell -/

variable {A : Type*} [AddCommGroup A]

/-- Contribution of a face to a cell: plus for the left cell, minus for the right cell. -/
def signed (φ : ℕ → ℕ → A) (i : ℕ) (F : Face) : A :=
  (if F.left = i then φ F.n0 F.n1 else 0) - (if F.right = i then φ F.n0 F.n1 else 0)

theorem sum_keys {E : List Ev} (hpw : E.Pairwise fun a b => ∀ x, x ∈ a.keys → x ∉ b.keys) {x : ℕ × ℕ}
    (hex : ∃ ev ∈ E, x ∈ ev.keys) (c : A) : (E.map fun ev => if x ∈ ev.keys then c else 0).sum = c := by
  induction E with
  | nil => obtain ⟨ev, h, _⟩ := hex; simp at h
  | cons a E ih =>
    rw [List.pairwise_cons] at hpw
    rw [List.map_cons, List.sum_cons]
    by_cases ha : x ∈ a.keys
    · have h0 : (E.map fun ev => if x ∈ ev.keys then c else 0) = E.map fun _ => (0 : A) := by
        apply List.map_congr_left
        intro ev hev
        rw [if_neg (hpw.1 ev hev x ha)]
      rw [h0, if_pos ha]; simp
    · rw [if_neg ha, zero_add]
      refine ih hpw.2 ?_
      obtain ⟨ev, hev, hx⟩ := hex
      rcases List.mem_cons.1 hev with rfl | hev
      · exact absurd hx ha
      · exact ⟨ev, hev, hx⟩

/-- Sum over the local faces of cell `i` of a quantity attached to the local face. -/
def cellSum (m : Mesh) (φ : ℕ → ℕ → A) (i : ℕ) : A :=
  ∑ f ∈ Finset.range (m.nnode i), φ (m.inpoel i f) (m.inpoel i ((f + 1) % m.nnode i))

/-- One event contributes to a cell exactly at the keys belonging to the cell. -/
theorem signed_event (hc : Conforming m) {hosts : List (ℕ × ℕ)} (hh : bfaceHosts m (esup m) = .ok hosts)
    {ev : Ev} (hev : ev ∈ allEv m hosts (esuel m (esup m))) {φ : ℕ → ℕ → A} (hφ : ∀ a b, φ b a = - φ a b)
    {i : ℕ} (hi : i < m.nelem) :
    signed φ i ev.face = ∑ f ∈ Finset.range (m.nnode i), if (i, f) ∈ ev.keys then
      φ (m.inpoel i f) (m.inpoel i ((f + 1) % m.nnode i)) else 0 := by
  have hm := hc.lin
  have single : ∀ x, IsFace m x → (∀ y, y ∈ ev.keys ↔ y = x) → ev.face.left = x.1 → ev.face.right ≥ m.nelem →
      ev.face.n0 = m.inpoel x.1 x.2 → ev.face.n1 = m.inpoel x.1 ((x.2 + 1) % m.nnode x.1) →
      signed φ i ev.face = ∑ f ∈ Finset.range (m.nnode i), if (i, f) ∈ ev.keys then
      φ (m.inpoel i f) (m.inpoel i ((f + 1) % m.nnode i)) else 0 := by
    intro x hx hk hl hr h0 h1
    simp only [hk, signed]
    rw [if_neg (show ¬ ev.face.right = i by omega), sub_zero, hl, h0, h1]
    by_cases hxi : x.1 = i
    · subst hxi
      rw [if_pos rfl, Finset.sum_eq_single x.2]
      · rw [if_pos rfl]
      · intro f _ hne
        rw [if_neg]
        intro h; exact hne (congrArg Prod.snd h)
      · intro h; exact absurd hx.2 (by simpa using h)
    · rw [if_neg hxi]
      symm
      apply Finset.sum_eq_zero
      intro f _
      rw [if_neg]
      intro h; exact hxi (congrArg Prod.fst h).symm
  simp only [allEv, List.mem_append, List.mem_map, List.mem_range, List.mem_filterMap] at hev
  rcases hev with (⟨k, hk, rfl⟩ | ⟨y, hy, hev⟩) | ⟨ic, hic, rfl⟩
  · obtain ⟨hf, _⟩ := host_edge hm hc.bfOk hh hk
    obtain ⟨h0, h1⟩ := host_nodes hc hh hk
    exact single (hostAt hosts k) hf (fun y => by simp [bEv]) rfl (by simp [bEv]; omega) h0 h1
  · obtain ⟨z, hz, hlt, hface, hkeys⟩ := iEv_keys hc (isInner_esuelB hm hc.bfOk hh) hev
    have hop := hc.opposite _ _ hz
    have hop' := hc.opposite _ _ hz.symm
    simp only [hkeys, hface, signed]
    by_cases h1 : y.1 = i
    · have h2 : ¬ z.1 = i := by omega
      rw [if_pos h1, if_neg h2, sub_zero, Finset.sum_eq_single y.2]
      · rw [if_pos (Or.inl (by rw [← h1])), ← h1]
      · intro f _ hne
        rw [if_neg]
        rintro (h | h)
        · exact hne (congrArg Prod.snd h)
        · exact h2 (congrArg Prod.fst h).symm
      · intro h
        have := hz.1.2; rw [h1] at this
        exact absurd this (by simpa using h)
    · rw [if_neg h1]
      by_cases h2 : z.1 = i
      · rw [if_pos h2, zero_sub, ← hop, hop', ← hφ, Finset.sum_eq_single z.2]
        · rw [if_pos (Or.inr (by rw [← h2])), ← h2]
        · intro f _ hne
          rw [if_neg]
          rintro (h | h)
          · exact h1 (congrArg Prod.fst h).symm
          · exact hne (congrArg Prod.snd h)
        · intro h
          have := hz.2.1.2; rw [h2] at this
          exact absurd this (by simpa using h)
      · rw [if_neg h2, sub_zero]
        symm
        apply Finset.sum_eq_zero
        intro f _
        rw [if_neg]
        rintro (h | h)
        · exact h1 (congrArg Prod.fst h).symm
        · exact h2 (congrArg Prod.fst h).symm
  · have hf := hc.cf ic hic
    have h2 : m.connface ic 1 < m.nnode (m.connface ic 0) := hf.2
    exact single (connKey m ic) hf (fun y => by simp [cEv, connKey]) rfl (by simp [cEv])
      (faceNodeI_zero m h2) rfl

/-- The signed sum over the face list of a quantity odd under reversal equals the sum over the cell's own
local faces. -/
theorem signed_sum_faces (hc : Conforming m) {s : FState} (h : topological m = .ok s) {φ : ℕ → ℕ → A}
    (hφ : ∀ a b, φ b a = - φ a b) {i : ℕ} (hi : i < m.nelem) :
    (s.faces.map (signed φ i)).sum = cellSum m φ i := by
  obtain ⟨hosts, hh, _, hE⟩ := faceConnectivity_eq m h
  have hfa : s.faces = (allEv m hosts (esuel m (esup m))).map Ev.face := by
    have := congrArg Prod.snd hE
    rw [runEv_faces] at this
    simpa using this
  rw [hfa, List.map_map]
  have h1 : (allEv m hosts (esuel m (esup m))).map (signed φ i ∘ Ev.face) =
      (allEv m hosts (esuel m (esup m))).map fun ev => ∑ f ∈ Finset.range (m.nnode i), if (i, f) ∈ ev.keys then
      φ (m.inpoel i f) (m.inpoel i ((f + 1) % m.nnode i)) else 0 := by
    apply List.map_congr_left
    intro ev hev
    exact signed_event hc hh hev hφ hi
  have hswap : ∀ E : List Ev, (E.map fun ev => ∑ f ∈ Finset.range (m.nnode i), if (i, f) ∈ ev.keys then
      φ (m.inpoel i f) (m.inpoel i ((f + 1) % m.nnode i)) else 0).sum
      = ∑ f ∈ Finset.range (m.nnode i), (E.map fun ev => if (i, f) ∈ ev.keys then
      φ (m.inpoel i f) (m.inpoel i ((f + 1) % m.nnode i)) else 0).sum := by
    intro E
    induction E with
    | nil => simp
    | cons a E ih => simp only [List.map_cons, List.sum_cons, ih, Finset.sum_add_distrib]
  rw [h1, hswap, cellSum]
  apply Finset.sum_congr rfl
  intro f hf
  exact sum_keys (keys_disjoint hc hh) (exists_key hc hh (x := (i, f)) ⟨hi, by simpa using hf⟩) _

/-- Left cells are real cells. -/
theorem face_left_lt (hm : Lin m) (hb : BfOk m) (hcf : ∀ ic, ic < m.nconnface → IsFace m (connKey m ic))
    {s : FState} (h : topological m = .ok s) {F : Face} (hF : F ∈ s.faces) : F.left < m.nelem := by
  obtain ⟨hosts, hh, hf⟩ := topological_faces hm hb h
  rw [hf] at hF
  simp only [List.mem_append, List.mem_map, List.mem_range] at hF
  rcases hF with (⟨k, hk, rfl⟩ | hF) | ⟨ic, hic, rfl⟩
  · exact (host_edge hm hb hh hk).1.1
  · simp only [innerFaces, List.mem_filterMap, mem_pairs, Option.map_eq_some_iff] at hF
    obtain ⟨x, hx, j, _, rfl⟩ := hF
    exact hx.1
  · exact (hcf ic hic).1

/-- Summed over all cells, the signed contributions of interior faces cancel; what remains are the boundary
and interface faces. -/
theorem sum_cells_signed (hm : Lin m) (hb : BfOk m) (hcf : ∀ ic, ic < m.nconnface → IsFace m (connKey m ic))
    {s : FState} (h : topological m = .ok s) (φ : ℕ → ℕ → A) :
    ∑ i ∈ Finset.range m.nelem, (s.faces.map (signed φ i)).sum
      = ((s.faces.filter fun F => m.nelem ≤ F.right).map fun F => φ F.n0 F.n1).sum := by
  have hl : ∀ F ∈ s.faces, F.left < m.nelem := fun F hF => face_left_lt hm hb hcf h hF
  generalize s.faces = L at hl
  induction L with
  | nil => simp
  | cons F L ih =>
    have ih := ih (fun G hG => hl G (List.mem_cons_of_mem _ hG))
    have hF := hl F (by simp)
    simp only [List.map_cons, List.sum_cons, Finset.sum_add_distrib, ih]
    have h1 : ∑ i ∈ Finset.range m.nelem, signed φ i F = if m.nelem ≤ F.right then φ F.n0 F.n1 else 0 := by
      simp only [signed, Finset.sum_sub_distrib, Finset.sum_ite_eq, Finset.mem_range, hF, if_true]
      by_cases hr : m.nelem ≤ F.right
      · rw [if_pos hr, if_neg (by omega), sub_zero]
      · rw [if_neg hr, if_pos (by omega), sub_self]
    rw [h1, List.filter_cons]
    by_cases hr : m.nelem ≤ F.right
    · simp [hr]
    · simp [hr]

/-! ### A concrete conforming mesh with an interface face -/

/-- The square and the triangle with oriented boundary faces, where the face from point 4 to point 2 of
the triangle is an interface to another partition. -/
noncomputable def exPart : Mesh :=
  { exMesh with
    nbface := 4
    nconnface := 1
    bface := fun i j => if i = 0 then (if j = 0 then 0 else 1) else if i = 1 then (if j = 0 then 1 else 4)
      else if i = 2 then (if j = 0 then 2 else 3) else (if j = 0 then 3 else 0)
    connface := fun _ j => if j = 3 then 17 else 1 }

theorem exPart_lin : Lin exPart := ⟨exMesh_lin.nf, exMesh_lin.three, exMesh_lin.lt, exMesh_lin.inj⟩

theorem exPart_glued (x y : ℕ × ℕ) (h : Glued exPart x y) :
    (x = (0, 1) ∧ y = (1, 2)) ∨ (x = (1, 2) ∧ y = (0, 1)) := exMesh_glued x y h

theorem exPart_conforming : Conforming exPart where
  lin := exPart_lin
  manifold := exMesh_manifold
  opposite := by
    intro x y h
    rcases exPart_glued x y h with ⟨rfl, rfl⟩ | ⟨rfl, rfl⟩ <;> rfl
  bf := by
    show ∀ k, k < 4 → _
    intro k hk
    obtain rfl | rfl | rfl | rfl : k = 0 ∨ k = 1 ∨ k = 2 ∨ k = 3 := by omega
    · exact ⟨(0, 0), ⟨by show 0 < 2; decide, by show 0 < 4; decide⟩, rfl, rfl⟩
    · exact ⟨(1, 0), ⟨by show 1 < 2; decide, by show 0 < 3; decide⟩, rfl, rfl⟩
    · exact ⟨(0, 2), ⟨by show 0 < 2; decide, by show 2 < 4; decide⟩, rfl, rfl⟩
    · exact ⟨(0, 3), ⟨by show 0 < 2; decide, by show 3 < 4; decide⟩, rfl, rfl⟩
  bfDistinct := by
    have h : ∀ k, k < 4 → ∀ l, l < 4 →
      s(exPart.bface k 0, exPart.bface k 1) = s(exPart.bface l 0, exPart.bface l 1) → k = l := by decide
    exact fun k l hk hl => h k hk l hl
  cf := by
    intro ic _
    exact ⟨by show 1 < 2; decide, by show 1 < 3; decide⟩
  cfDistinct := by
    intro ic jc h1 h2 _
    have h1 : ic < 1 := h1
    have h2 : jc < 1 := h2
    omega
  cfNotGlued := by
    intro ic _ y h
    rcases exPart_glued _ _ h with ⟨h, _⟩ | ⟨h, _⟩
    · exact absurd (congrArg Prod.fst h) (by show (1 : ℕ) ≠ 0; decide)
    · exact absurd (congrArg Prod.snd h) (by show (1 : ℕ) ≠ 2; decide)
  cfNotBf := by
    have h : ∀ ic, ic < 1 → ∀ k, k < 4 → edge exPart (connKey exPart ic) ≠ s(exPart.bface k 0, exPart.bface k 1) := by
      decide
    exact fun ic k h1 h2 => h ic h1 k h2
  cover := by
    rintro ⟨i, f⟩ ⟨hi, hf⟩
    have hi : i < 2 := hi
    have hf : f < exPart.nnode i := hf
    have g : Glued exPart (0, 1) (1, 2) :=
      ⟨⟨by show 0 < 2; decide, by show 1 < 4; decide⟩, ⟨by show 1 < 2; decide, by show 2 < 3; decide⟩, by decide, by decide⟩
    obtain rfl | rfl : i = 0 ∨ i = 1 := by omega
    · have hf : f < 4 := hf
      obtain rfl | rfl | rfl | rfl : f = 0 ∨ f = 1 ∨ f = 2 ∨ f = 3 := by omega
      · exact Or.inr (Or.inl ⟨0, by show 0 < 4; decide, by decide⟩)
      · exact Or.inl ⟨_, g⟩
      · exact Or.inr (Or.inl ⟨2, by show 2 < 4; decide, by decide⟩)
      · exact Or.inr (Or.inl ⟨3, by show 3 < 4; decide, by decide⟩)
    · have hf : f < 3 := hf
      obtain rfl | rfl | rfl : f = 0 ∨ f = 1 ∨ f = 2 := by omega
      · exact Or.inr (Or.inl ⟨1, by show 1 < 4; decide, by decide⟩)
      · exact Or.inr (Or.inr ⟨0, by show 0 < 1; decide, rfl⟩)
      · exact Or.inl ⟨_, g.symm⟩

theorem exPart_hosts : bfaceHosts exPart (esup exPart) = .ok [(0, 0), (1, 0), (0, 2), (0, 3)] := by
  decide +kernel

/-- The topological pre-processing of the example succeeds, and the maps are as expected. -/
theorem exPart_topological : ∃ s, topological exPart = .ok s ∧ s.faces = [⟨0, 3, 0, 1⟩, ⟨1, 4, 1, 4⟩, ⟨0, 5, 2, 3⟩,
    ⟨0, 6, 3, 0⟩, ⟨0, 1, 1, 2⟩, ⟨1, 2, 4, 2⟩] ∧ s.elemface 1 2 = some 4 ∧ s.esuel 1 1 = some 2 := by
  rw [topological, faceConnectivity, exPart_hosts]
  exact ⟨_, rfl, by decide +kernel, by decide +kernel, by decide +kernel⟩

end Msh
end FVENS
