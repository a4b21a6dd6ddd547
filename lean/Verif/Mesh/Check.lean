import Verif.Mesh.Sub

/-!
# A decidable test for conforming global meshes, and concrete partitioned meshes
-/

namespace FVENS
namespace Msh

/-- No third cell at the edge shared by `(i, f)` and `(j, g)`. -/
def CheckM (m : Mesh) (i f j g : ℕ) : Prop :=
  ∀ k < m.nelem, ∀ h < m.nnode k, (i ≠ k ∧ edge m (i, f) = edge m (k, h)) → (j = k ∧ g = h)

instance (m : Mesh) (i f j g : ℕ) : Decidable (CheckM m i f j g) := by unfold CheckM; infer_instance

/-- Shared edges are traversed in opposite directions. -/
def CheckO (m : Mesh) (i f : ℕ) : Prop :=
  ∀ j < m.nelem, ∀ g < m.nnode j, i ≠ j → edge m (i, f) = edge m (j, g) →
    m.inpoel j g = m.inpoel i ((f + 1) % m.nnode i) ∧ CheckM m i f j g

instance (m : Mesh) (i f : ℕ) : Decidable (CheckO m i f) := by unfold CheckO; infer_instance

/-- Cell `i` has three or more different points. -/
def CheckL (m : Mesh) (i : ℕ) : Prop :=
  m.nfael i = m.nnode i ∧ 3 ≤ m.nnode i ∧ (∀ j < m.nnode i, m.inpoel i j < m.npoin) ∧
    ∀ j < m.nnode i, ∀ k < m.nnode i, m.inpoel i j = m.inpoel i k → j = k

instance (m : Mesh) (i : ℕ) : Decidable (CheckL m i) := by unfold CheckL; infer_instance

/-- Boundary face `k` is an edge and occurs once. -/
def CheckB (m : Mesh) (k : ℕ) : Prop :=
  (∃ i < m.nelem, ∃ f < m.nnode i, m.bface k 0 = m.inpoel i f ∧ m.bface k 1 = m.inpoel i ((f + 1) % m.nnode i)) ∧
    ∀ l < m.nbface, s(m.bface k 0, m.bface k 1) = s(m.bface l 0, m.bface l 1) → k = l

instance (m : Mesh) (k : ℕ) : Decidable (CheckB m k) := by unfold CheckB; infer_instance

/-- Interface record `ic` names a local face, once, that is neither shared nor on the boundary. -/
def CheckI (m : Mesh) (ic : ℕ) : Prop :=
  (connKey m ic).1 < m.nelem ∧ (connKey m ic).2 < m.nnode (connKey m ic).1 ∧ (∀ jc < m.nconnface, connKey m ic = connKey m jc → ic = jc) ∧
    (∀ j < m.nelem, ∀ g < m.nnode j, (connKey m ic).1 ≠ j → edge m (connKey m ic) ≠ edge m (j, g)) ∧
    ∀ k < m.nbface, edge m (connKey m ic) ≠ s(m.bface k 0, m.bface k 1)

instance (m : Mesh) (ic : ℕ) : Decidable (CheckI m ic) := by unfold CheckI; infer_instance

/-- Local face `(i, f)` is shared, on the boundary or at an interface. -/
def CheckC (m : Mesh) (i f : ℕ) : Prop :=
  (∃ j < m.nelem, ∃ g < m.nnode j, i ≠ j ∧ edge m (i, f) = edge m (j, g)) ∨
    (∃ k < m.nbface, edge m (i, f) = s(m.bface k 0, m.bface k 1)) ∨ ∃ ic < m.nconnface, connKey m ic = (i, f)

instance (m : Mesh) (i f : ℕ) : Decidable (CheckC m i f) := by unfold CheckC; infer_instance

/-- Bounded form of `Conforming`. -/
def Check (m : Mesh) : Prop :=
  (∀ ic < m.nconnface, CheckI m ic) ∧ (∀ i < m.nelem, CheckL m i) ∧ (∀ i < m.nelem, ∀ f < m.nnode i, CheckO m i f) ∧
  (∀ k < m.nbface, CheckB m k) ∧ (∀ i < m.nelem, ∀ f < m.nnode i, CheckC m i f)

instance (m : Mesh) : Decidable (Check m) := by unfold Check; infer_instance

theorem Check.conforming {m : Mesh} (h : Check m) : Conforming m := by
  obtain ⟨h0, h1, h2, h3, h4⟩ := h
  refine ⟨⟨fun i hi => (h1 i hi).1, fun i hi => (h1 i hi).2.1, fun i hi => (h1 i hi).2.2.1,
    fun i hi j k hj hk => (h1 i hi).2.2.2 j hj k hk⟩, ?_, ?_, ?_, ?_, ?_, ?_, ?_, ?_, ?_⟩
  · rintro ⟨i, f⟩ ⟨j, g⟩ ⟨k, h⟩ a b
    obtain ⟨rfl, rfl⟩ := (h2 i a.1.1 f a.1.2 j a.2.1.1 g a.2.1.2 a.2.2.1 a.2.2.2).2 k b.2.1.1 h b.2.1.2 ⟨b.2.2.1, b.2.2.2⟩
    rfl
  · rintro ⟨i, f⟩ ⟨j, g⟩ a
    exact (h2 i a.1.1 f a.1.2 j a.2.1.1 g a.2.1.2 a.2.2.1 a.2.2.2).1
  · intro k hk
    obtain ⟨i, hi, f, hf, e0, e1⟩ := (h3 k hk).1
    exact ⟨(i, f), ⟨hi, hf⟩, e0, e1⟩
  · exact fun k l hk hl => (h3 k hk).2 l hl
  · exact fun ic hic => ⟨(h0 ic hic).1, (h0 ic hic).2.1⟩
  · exact fun ic jc hic hjc => (h0 ic hic).2.2.1 jc hjc
  · exact fun ic hic y hy => (h0 ic hic).2.2.2.1 y.1 hy.2.1.1 y.2 hy.2.1.2 hy.2.2.1 hy.2.2.2
  · exact fun ic k hic hk => (h0 ic hic).2.2.2.2 k hk
  · rintro ⟨i, f⟩ hx
    rcases h4 i hx.1 f hx.2 with ⟨j, hj, g, hg, hne, he⟩ | ⟨k, hk, he⟩ | ⟨ic, hic, he⟩
    · exact Or.inl ⟨(j, g), hx, ⟨hj, hg⟩, hne, he⟩
    · exact Or.inr (Or.inl ⟨k, hk, he⟩)
    · exact Or.inr (Or.inr ⟨ic, hic, he⟩)

/-- A mesh of triangles given by lists. -/
noncomputable def triMesh (npoin : ℕ) (cells : List (ℕ × ℕ × ℕ)) (bf : List (ℕ × ℕ × ℕ)) (xy : ℕ → Fin 2 → ℝ) : Mesh where
  npoin := npoin
  nelem := cells.length
  nbface := bf.length
  nconnface := 0
  nbtag := 1
  ndtag := 1
  nnode := fun _ => 3
  nfael := fun _ => 3
  inpoel := fun i j => match cells[i]? with
    | none => 0
    | some c => if j = 0 then c.1 else if j = 1 then c.2.1 else c.2.2
  bface := fun i j => match bf[i]? with
    | none => 0
    | some c => if j = 0 then c.1 else c.2.1
  btag := fun i _ => match bf[i]? with
    | none => 0
    | some c => c.2.2
  volRegions := fun i _ => i
  connface := fun _ _ => 0
  coords := xy

theorem topological_of_hosts {m : Mesh} {hosts : List (ℕ × ℕ)} (h : bfaceHosts m (esup m) = .ok hosts) :
    ∃ s, topological m = .ok s := by
  unfold topological faceConnectivity
  rw [h]
  exact ⟨_, rfl⟩

/-- Boundary faces and points of a rank, in bounded form. -/
def PtOnBb (m : Mesh) (dist : ℕ → ℕ) (rank p : ℕ) : Prop :=
  ∃ k < m.nbface, (∃ i < m.nelem, ∃ f < m.nnode i, edge m (i, f) = s(m.bface k 0, m.bface k 1) ∧ dist i = rank) ∧
    (p = m.bface k 0 ∨ p = m.bface k 1)

instance (m : Mesh) (dist : ℕ → ℕ) (rank p : ℕ) : Decidable (PtOnBb m dist rank p) := by unfold PtOnBb; infer_instance

theorem ptOnB_iff (m : Mesh) (dist : ℕ → ℕ) (rank p : ℕ) : PtOnB m dist rank p ↔ PtOnBb m dist rank p := by
  constructor
  · rintro ⟨k, ⟨hk, ⟨i, f⟩, hx, he, hd⟩, hp⟩
    exact ⟨k, hk, ⟨i, hx.1, f, hx.2, he, hd⟩, hp⟩
  · rintro ⟨k, hk, ⟨i, hi, f, hf, he, hd⟩, hp⟩
    exact ⟨k, ⟨hk, (i, f), ⟨hi, hf⟩, he, hd⟩, hp⟩

/-! ### The unit square cut into two triangles -/

/-- Two triangles `0 1 2` and `0 2 3`. -/
noncomputable def sq : Mesh :=
  triMesh 4 [(0, 1, 2), (0, 2, 3)] [(0, 1, 7), (1, 2, 8), (2, 3, 9), (3, 0, 10)]
    fun i k => if k = 0 then (if i = 1 ∨ i = 2 then 1 else 0) else (if 2 ≤ i then 1 else 0)

theorem sq_check : Check sq := by decide +kernel

theorem sq_topological : ∃ s, topological sq = .ok s :=
  topological_of_hosts (hosts := [(0, 0), (0, 1), (1, 1), (1, 2)]) (by decide +kernel)

/-- C37 applied to the square on two ranks as assigned by the trivial partitioner: both subdomains are extracted. -/
example : ∃ d s, trivialPartition 2 2 = .ok d ∧ topological sq = .ok s ∧
    ∀ r, ∃ S, restrict sq s d r = .ok S ∧ IsSub sq d r S := by
  obtain ⟨d, hd, _⟩ := (C36_trivial 2 2 (by decide)).2 le_rfl
  obtain ⟨s, hs⟩ := sq_topological
  exact ⟨d, s, hd, hs, fun r => C37_extraction sq_check.conforming rfl (by decide +kernel) hs d r⟩

/-- C38 fails: on the unit square cut into two triangles, distributed to two ranks by the trivial partitioner, the
diagonal is not registered as an interface face on either rank, since both end points lie on boundary faces of each. -/
theorem C38_refuted : Conforming sq ∧ sq.nconnface = 0 ∧ ∃ d s, trivialPartition sq.nelem 2 = .ok d ∧
    topological sq = .ok s ∧ Glued sq (0, 2) (1, 0) ∧ d 0 ≠ d 1 ∧
    ¬ RegisteredAs sq s d 0 2 1 ∧ ¬ RegisteredAs sq s d 1 0 0 ∧ ¬ AllRegistered sq s d := by
  obtain ⟨d, hd, _⟩ := (C36_trivial 2 2 (by decide)).2 le_rfl
  obtain ⟨s, hs⟩ := sq_topological
  have hc := sq_check.conforming
  have d0 : d 0 = 0 := (C36_counts (by decide) hd (by decide) (by decide)).2 (by decide)
  have d1 : d 1 = 1 := (C36_counts (by decide) hd (by decide) (by decide)).2 (by decide)
  have hgl : Glued sq (0, 2) (1, 0) :=
    ⟨⟨by decide +kernel, by decide +kernel⟩, ⟨by decide +kernel, by decide +kernel⟩, by decide, by decide +kernel⟩
  have hne : d 0 ≠ d 1 := by rw [d0, d1]; decide
  have hdi : ∀ i, i < 2 → d i = i := by
    intro i hi
    rcases (show i = 0 ∨ i = 1 by omega) with rfl | rfl
    · exact d0
    · exact d1
  have hP : ∀ r p, PtOnB sq id r p → PtOnB sq d r p := by
    rintro r p ⟨k, ⟨hk, x, hx, he, hd'⟩, hp⟩
    exact ⟨k, ⟨hk, x, hx, he, by rw [hdi x.1 hx.1]; exact hd'⟩, hp⟩
  have hpts : ∀ r < 2, ∀ p, p = 0 ∨ p = 2 → PtOnB sq d r p := by
    intro r hr p hp
    apply hP
    rw [ptOnB_iff]
    have : ∀ r < 2, PtOnBb sq id r 0 ∧ PtOnBb sq id r 2 := by decide +kernel
    rcases hp with rfl | rfl
    · exact (this r hr).1
    · exact (this r hr).2
  have hn1 : ¬ RegisteredAs sq s d 0 2 1 := by
    rw [registered_iff hc rfl (by decide +kernel) hs d hgl hne]
    rintro ⟨p, hp, hn⟩
    rw [d0] at hn
    refine hn (hpts 0 (by decide) p ?_)
    have : edge sq (0, 2) = s(2, 0) := by decide +kernel
    rw [this, Sym2.mem_iff] at hp; omega
  have hn2 : ¬ RegisteredAs sq s d 1 0 0 := by
    rw [registered_iff hc rfl (by decide +kernel) hs d hgl.symm hne.symm]
    rintro ⟨p, hp, hn⟩
    rw [d1] at hn
    refine hn (hpts 1 (by decide) p ?_)
    have : edge sq (1, 0) = s(0, 2) := by decide +kernel
    rw [this, Sym2.mem_iff] at hp; omega
  exact ⟨hc, rfl, d, s, hd, hs, hgl, hne, hn1, hn2, fun ha => hn1 (ha 0 2 1 0 hgl hne).1⟩

/-! ### A fan with an interior point -/

/-- Four triangles; point 3 is interior. -/
noncomputable def fan : Mesh :=
  triMesh 5 [(0, 1, 2), (0, 2, 3), (2, 4, 3), (4, 0, 3)] [(0, 1, 1), (1, 2, 1), (2, 4, 1), (4, 0, 1)] fun i _ => i

theorem fan_check : Check fan := by decide +kernel

theorem fan_topological : ∃ s, topological fan = .ok s :=
  topological_of_hosts (hosts := [(0, 0), (0, 1), (2, 0), (3, 0)]) (by decide +kernel)

/-- C38 fails asymmetrically: with one cell per rank, the face between cells 0 and 1 is registered on the rank of cell 1,
which will wait for cell 0's values, but not on the rank of cell 0. -/
theorem C38_one_sided_refuted : Conforming fan ∧ fan.nconnface = 0 ∧ ∃ s, topological fan = .ok s ∧
    Glued fan (0, 2) (1, 0) ∧ ¬ RegisteredAs fan s id 0 2 1 ∧ RegisteredAs fan s id 1 0 0 := by
  obtain ⟨s, hs⟩ := fan_topological
  have hc := fan_check.conforming
  have hgl : Glued fan (0, 2) (1, 0) :=
    ⟨⟨by decide +kernel, by decide +kernel⟩, ⟨by decide +kernel, by decide +kernel⟩, by decide, by decide +kernel⟩
  refine ⟨hc, rfl, s, hs, hgl, ?_, ?_⟩
  · rw [registered_iff hc rfl (by decide +kernel) hs id hgl (by decide)]
    rintro ⟨p, hp, hn⟩
    have he : edge fan (0, 2) = s(2, 0) := by decide +kernel
    have h2 : PtOnBb fan id 0 0 ∧ PtOnBb fan id 0 2 := by decide +kernel
    rw [he, Sym2.mem_iff] at hp
    apply hn
    rw [ptOnB_iff]
    rcases hp with rfl | rfl
    · exact h2.2
    · exact h2.1
  · rw [registered_iff hc rfl (by decide +kernel) hs id hgl.symm (by decide)]
    refine ⟨0, ?_, ?_⟩
    · have he : edge fan (1, 0) = s(0, 2) := by decide +kernel
      rw [he]; simp
    · rw [ptOnB_iff]; decide +kernel

set_option synthInstance.maxSize 1000 in
/-- The condition of `C38_registered_partial` holds, e.g., for the fan split into cells {0,1} and {2,3}: the faces
between the two parts end at the interior point. -/
example : ∃ s, topological fan = .ok s ∧ RegisteredAs fan s (fun i => i / 2) 1 1 2 ∧ RegisteredAs fan s (fun i => i / 2) 2 2 1 := by
  obtain ⟨s, hs⟩ := fan_topological
  have hc := fan_check.conforming
  have hgl : Glued fan (1, 1) (2, 2) :=
    ⟨⟨by decide +kernel, by decide +kernel⟩, ⟨by decide +kernel, by decide +kernel⟩, by decide, by decide +kernel⟩
  refine ⟨s, hs, C38_registered_partial hc rfl (by decide +kernel) hs _ ?_ hgl (by decide)⟩
  rintro g f ⟨j, k, hg, hd⟩
  have h : ∀ g < 4, ∀ f < 3, ∀ j < 4, ∀ k < 3, (g = j ∨ edge fan (g, f) ≠ edge fan (j, k) ∨ j / 2 = g / 2) ∨
      (3 = fan.inpoel g f ∨ 3 = fan.inpoel g ((f + 1) % 3)) := by decide +kernel
  have h' : ∀ g < 4, ¬ PtOnBb fan (fun i => i / 2) (g / 2) 3 := by decide +kernel
  have := (h g hg.1.1 f hg.1.2 j hg.2.1.1 k hg.2.1.2).resolve_left
    (by rintro (h | h | h); exacts [hg.2.2.1 h, h hg.2.2.2, hd h])
  exact ⟨3, mem_edge.2 this, by rw [ptOnB_iff]; exact h' g hg.1.1⟩

end Msh
end FVENS
