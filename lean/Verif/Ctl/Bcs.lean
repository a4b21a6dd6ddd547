import Verif.BC.Model
import Mathlib.Data.Finset.Card
import Mathlib.Data.List.Basic

/-!
# Control file: list of boundary conditions (C63)

The control file is a property tree: nodes with a string and an ordered list of named children. Reading the file into the tree, the conversions of strings to
numbers and the change to lower case belong to Boost and are abstract.
-/

namespace FVENS
namespace Ctl

/-- `boost::property_tree::ptree`: data and named children. -/
inductive Tree
  | node (data : String) (kids : List (String × Tree))

namespace Tree

def data : Tree → String
  | node d _ => d

def kids : Tree → List (String × Tree)
  | node _ k => k

/-- Child of a given name; of several children of the same name the first. -/
def child (t : Tree) (name : String) : Option Tree := (t.kids.find? fun p => p.1 == name).map (·.2)

/-- `get_child_optional` for a path, whose parts are separated by dots in the code. -/
def path (t : Tree) : List String → Option Tree
  | [] => some t
  | n :: ns => (t.child n).bind fun c => c.path ns

/-- `get<std::string>(path)`; `none` is the exception for a missing node. -/
def str (t : Tree) (p : List String) : Option String := (t.path p).map data

end Tree

/-- Conversions of the data of a node: `get<int>`, the lists read from a stream by `parseStringToVector` (src/utilities/controlparser.cpp:44-54), and
`boost::to_lower_copy`. -/
structure Conv where
  toInt : String → Option ℤ
  reals : String → List ℝ
  ints : String → List ℤ
  lower : String → String

/-- `FlowBCConfig`, src/spatial/abc.hpp:34-40. -/
structure BcConf where
  kind : BC.Kind
  tag : ℤ
  vals : List ℝ
  opts : List ℤ

/-- Key of a section: `c_bcs+".bc"+std::to_string(ibc)`, src/utilities/controlparser.cpp:256. -/
def key (i : ℕ) : List String := ["bc", "bc" ++ i.repr]

/-- Conditions for which values are read, src/utilities/controlparser.cpp:267-269. -/
def needsVals : BC.Kind → Bool
  | .adiabaticWall | .isothermalWall | .subsonicInflow => true
  | _ => false

/-- One section, src/utilities/controlparser.cpp:259-282; `none` for an exception: a missing or unreadable entry, or an unknown type. -/
def readSection (cv : Conv) (t : Tree) (i : ℕ) : Option BcConf :=
  (t.str (key i ++ ["type"])).bind fun ty =>
  (BC.kindOfName (cv.lower ty)).bind fun kd =>
  ((t.str (key i ++ ["marker"])).bind cv.toInt).bind fun tag =>
  (if needsVals kd then (t.str (key i ++ ["boundary_values"])).map cv.reals else some []).bind fun vals =>
  (if kd = .periodic then (t.str (key i ++ ["options"])).map cv.ints else some []).bind fun opts =>
  some ⟨kd, tag, vals, opts⟩

/-- The loop `while(found)`, src/utilities/controlparser.cpp:255-287, with a bound on the number of iterations. Outer `none`: the bound is exhausted;
inner `none`: an exception. -/
def scan (cv : Conv) (t : Tree) : ℕ → ℕ → List BcConf → Option (Option (List BcConf))
  | 0, _, _ => none
  | n + 1, i, acc =>
    match t.str (key i) with
    | none => some (some acc)
    | some _ =>
      match readSection cv t i with
      | none => some none
      | some c => scan cv t n (i + 1) (acc ++ [c])

/-- `parse_BC_options`, src/utilities/controlparser.cpp:248-290, run to the end: the loop needs one iteration more than there are entries in the section. -/
def parseBcs (cv : Conv) (t : Tree) : Option (Option (List BcConf)) :=
  scan cv t (((t.child "bc").elim 0 fun b => b.kids.length) + 1) 0 []

/-! ## Specification -/

/-- The control file has a section number `i`. -/
def HasSection (t : Tree) (i : ℕ) : Prop := ∃ b s, t.child "bc" = some b ∧ b.child ("bc" ++ i.repr) = some s

/-- The word for each type of boundary, as used in doc/example-control-file.ctrl and the control files under testcases/, in lower case. -/
def bcName : BC.Kind → String
  | .slipWall => "slipwall" | .farfield => "farfield" | .inflowOutflow => "inflowoutflow" | .subsonicInflow => "subsonic_inflow"
  | .extrapolation => "extrapolation" | .periodic => "periodic" | .isothermalWall => "isothermalwall" | .adiabaticWall => "adiabaticwall"

/-- A section describes a boundary condition: its type is named in any case, its marker is a number, and there are values and options where the type needs them. -/
def Describes (cv : Conv) (s : Tree) (c : BcConf) : Prop :=
  (∃ ty, s.child "type" = some ty ∧ cv.lower ty.data = bcName c.kind) ∧
  (∃ mk, s.child "marker" = some mk ∧ cv.toInt mk.data = some c.tag) ∧
  (if c.kind = .adiabaticWall ∨ c.kind = .isothermalWall ∨ c.kind = .subsonicInflow then ∃ v, s.child "boundary_values" = some v ∧ c.vals = cv.reals v.data
    else c.vals = []) ∧
  (if c.kind = .periodic then ∃ v, s.child "options" = some v ∧ c.opts = cv.ints v.data else c.opts = [])

/-- Section `i` of the control file describes the condition. -/
def Section (cv : Conv) (t : Tree) (i : ℕ) (c : BcConf) : Prop := ∃ b s, t.child "bc" = some b ∧ b.child ("bc" ++ i.repr) = some s ∧ Describes cv s c

/-! ## Auxiliary -/

theorem repr_inj {a b : ℕ} (h : a.repr = b.repr) : a = b := by
  have h1 : Nat.toDigits 10 a = Nat.toDigits 10 b := by rw [← Nat.toList_repr, ← Nat.toList_repr, h]
  rw [← Nat.ofDigitChars_ten_toDigits (n := a), h1, Nat.ofDigitChars_ten_toDigits]

theorem secName_inj {a b : ℕ} (h : "bc" ++ a.repr = "bc" ++ b.repr) : a = b := by
  apply repr_inj
  have := congrArg String.toList h
  rw [String.toList_append, String.toList_append] at this
  exact String.toList_inj.1 (List.append_cancel_left this)

theorem has_iff (t : Tree) (i : ℕ) : HasSection t i ↔ (t.str (key i)).isSome = true := by
  unfold HasSection Tree.str key
  simp only [Tree.path, Option.isSome_map]
  rcases t.child "bc" with _ | b
  · simp
  · rcases h : b.child ("bc" ++ i.repr) with _ | s <;> simp [h]

/-- The map of names is one-to-one on names. -/
theorem kindOfName_iff (n : String) (k : BC.Kind) : BC.kindOfName n = some k ↔ n = bcName k := by
  unfold BC.kindOfName
  constructor
  · intro h
    obtain ⟨e, he, rfl⟩ := Option.map_eq_some_iff.1 h
    have h1 := List.mem_of_find?_eq_some he
    have h2 := List.find?_some he
    simp only [beq_iff_eq] at h2
    subst h2
    simp only [BC.typeMap, List.mem_cons, List.not_mem_nil, or_false] at h1
    rcases h1 with rfl | rfl | rfl | rfl | rfl | rfl | rfl | rfl <;> rfl
  · rintro rfl
    cases k <;> decide

theorem needsVals_iff (k : BC.Kind) : needsVals k = true ↔ (k = .adiabaticWall ∨ k = .isothermalWall ∨ k = .subsonicInflow) := by
  cases k <;> simp [needsVals]

theorem read_iff (cv : Conv) (t : Tree) (i : ℕ) (c : BcConf) : readSection cv t i = some c ↔ Section cv t i c := by
  have hp : ∀ n, t.str (key i ++ [n]) = ((t.child "bc").bind fun b => (b.child ("bc" ++ i.repr)).bind fun s => (s.child n).map Tree.data) := by
    intro n
    simp only [Tree.str, key, List.cons_append, List.nil_append, Tree.path]
    rcases t.child "bc" with _ | b
    · rfl
    · rcases hb : b.child ("bc" ++ i.repr) with _ | s
      · simp [hb]
      · rcases hs : s.child n with _ | x <;> simp [hb, hs]
  unfold readSection
  simp only [hp]
  rcases ht : t.child "bc" with _ | b
  · simp [Section, ht]
  · rcases hb : b.child ("bc" ++ i.repr) with _ | s
    · simp only [Option.bind_some, hb, Option.bind_none, reduceCtorEq, false_iff]
      rintro ⟨b', s, h1, h2, -⟩
      rw [ht] at h1; cases h1
      rw [hb] at h2; cases h2
    · have hsec : Section cv t i c ↔ Describes cv s c := by
        constructor
        · rintro ⟨b', s', h1, h2, h3⟩
          rw [ht] at h1; cases h1
          rw [hb] at h2; cases h2
          exact h3
        · exact fun h => ⟨b, s, ht, hb, h⟩
      rw [hsec]
      unfold Describes
      simp only [Option.bind_some, hb, ← needsVals_iff, ← kindOfName_iff]
      obtain ⟨kd, tag, vals, opts⟩ := c
      simp only
      constructor
      · intro h
        obtain ⟨_, h1, h⟩ := Option.bind_eq_some_iff.1 h
        obtain ⟨ty, hty, rfl⟩ := Option.map_eq_some_iff.1 h1
        obtain ⟨k, hk, h⟩ := Option.bind_eq_some_iff.1 h
        obtain ⟨tg, h2, h⟩ := Option.bind_eq_some_iff.1 h
        obtain ⟨_, h3, htg⟩ := Option.bind_eq_some_iff.1 h2
        obtain ⟨mk, hmk, rfl⟩ := Option.map_eq_some_iff.1 h3
        obtain ⟨v, hv, h⟩ := Option.bind_eq_some_iff.1 h
        obtain ⟨o, ho, heq⟩ := Option.bind_eq_some_iff.1 h
        simp only [Option.some.injEq, BcConf.mk.injEq] at heq
        obtain ⟨rfl, rfl, rfl, rfl⟩ := heq
        refine ⟨⟨ty, hty, hk⟩, ⟨mk, hmk, htg⟩, ?_, ?_⟩
        · split_ifs at hv ⊢ with hn
          · obtain ⟨_, h4, rfl⟩ := Option.map_eq_some_iff.1 hv
            obtain ⟨x, hx, rfl⟩ := Option.map_eq_some_iff.1 h4
            exact ⟨x, hx, rfl⟩
          · exact (Option.some.inj hv).symm
        · split_ifs at ho ⊢ with hn
          · obtain ⟨_, h4, rfl⟩ := Option.map_eq_some_iff.1 ho
            obtain ⟨x, hx, rfl⟩ := Option.map_eq_some_iff.1 h4
            exact ⟨x, hx, rfl⟩
          · exact (Option.some.inj ho).symm
      · rintro ⟨⟨ty, hty, hk⟩, ⟨mk, hmk, htg⟩, hv, ho⟩
        have e1 : (if needsVals kd = true then ((s.child "boundary_values").map Tree.data).map cv.reals else some []) = some vals := by
          split_ifs at hv ⊢ with hn
          · obtain ⟨x, hx, rfl⟩ := hv; simp [hx]
          · rw [hv]
        have e2 : (if kd = .periodic then ((s.child "options").map Tree.data).map cv.ints else some []) = some opts := by
          split_ifs at ho ⊢ with hn
          · obtain ⟨x, hx, rfl⟩ := ho; simp [hx]
          · rw [ho]
        simp only [hty, Option.map_some, Option.bind_some, hk, hmk, htg, e1, e2]

/-- Sections `0 … m-1` and no section `m`: the sections are found among the entries of `bc`. -/
theorem sections_le (t : Tree) (m : ℕ) (h : ∀ i < m, HasSection t i) : m ≤ (t.child "bc").elim 0 fun b => b.kids.length := by
  rcases Nat.eq_zero_or_pos m with rfl | hm
  · exact Nat.zero_le _
  obtain ⟨b, _, hb, -⟩ := h 0 hm
  simp only [hb, Option.elim_some]
  have hmem : ∀ i < m, ("bc" ++ i.repr) ∈ b.kids.map Prod.fst := by
    intro i hi
    obtain ⟨b', s, hb', hs⟩ := h i hi
    rw [hb] at hb'
    cases hb'
    obtain ⟨p, hp, -⟩ := Option.map_eq_some_iff.1 hs
    refine List.mem_map.2 ⟨p, List.mem_of_find?_eq_some hp, ?_⟩
    have := List.find?_some hp
    simpa using this
  have hsub : (Finset.range m).image (fun i : ℕ => "bc" ++ i.repr) ⊆ (b.kids.map Prod.fst).toFinset := by
    intro x hx
    obtain ⟨i, hi, rfl⟩ := Finset.mem_image.1 hx
    exact List.mem_toFinset.2 (hmem i (Finset.mem_range.1 hi))
  have hcard := Finset.card_le_card hsub
  rw [Finset.card_image_of_injective _ (fun a b hab => secName_inj hab), Finset.card_range] at hcard
  exact hcard.trans ((List.toFinset_card_le _).trans (by simp))

theorem scan_spec (cv : Conv) (t : Tree) : ∀ (n i : ℕ) (acc : List BcConf) (r : Option (List BcConf)), scan cv t n i acc = some r →
    (∃ l, r = some (acc ++ l) ∧ (∀ (k : ℕ) (hk : k < l.length), Section cv t (i + k) l[k]) ∧ ¬ HasSection t (i + l.length)) ∨
    (r = none ∧ ∃ m, (∀ k < m, ∃ c, Section cv t (i + k) c) ∧ HasSection t (i + m) ∧ ∀ c, ¬ Section cv t (i + m) c) := by
  intro n
  induction n with
  | zero => intro i acc r h; cases h
  | succ n ih =>
    intro i acc r h
    simp only [scan] at h
    split at h
    · rename_i hnone
      cases h
      refine Or.inl ⟨[], by simp, by simp, ?_⟩
      rw [has_iff]; simp [hnone]
    · rename_i x hsome
      split at h
      · rename_i hr
        cases h
        refine Or.inr ⟨rfl, 0, by simp, ?_, fun c hc => ?_⟩
        · rw [has_iff]; simp [hsome]
        · have := (read_iff cv t i c).2 hc
          rw [hr] at this; cases this
      · rename_i c hr
        have hc := (read_iff cv t i c).1 hr
        rcases ih (i + 1) (acc ++ [c]) r h with ⟨l, rfl, hl, hlast⟩ | ⟨rfl, m, hm, h1, h2⟩
        · refine Or.inl ⟨c :: l, by simp, fun k hk => ?_, ?_⟩
          · cases k with
            | zero => exact hc
            | succ k =>
              have := hl k (by simpa using hk)
              rw [show i + (k + 1) = i + 1 + k by omega]
              exact this
          · rw [List.length_cons, show i + (l.length + 1) = i + 1 + l.length by omega]; exact hlast
        · refine Or.inr ⟨rfl, m + 1, fun k hk => ?_, ?_, ?_⟩
          · cases k with
            | zero => exact ⟨c, hc⟩
            | succ k => rw [show i + (k + 1) = i + 1 + k by omega]; exact hm k (by omega)
          · rw [show i + (m + 1) = i + 1 + m by omega]; exact h1
          · rw [show i + (m + 1) = i + 1 + m by omega]; exact h2

theorem section_has {cv : Conv} {t : Tree} {i : ℕ} {c : BcConf} (h : Section cv t i c) : HasSection t i := by
  obtain ⟨b, s, h1, h2, -⟩ := h; exact ⟨b, s, h1, h2⟩

theorem scan_none (cv : Conv) (t : Tree) : ∀ (n i : ℕ) (acc : List BcConf), scan cv t n i acc = none → ∀ k < n, HasSection t (i + k) := by
  intro n
  induction n with
  | zero => intro i acc _ k hk; omega
  | succ n ih =>
    intro i acc h k hk
    simp only [scan] at h
    split at h
    · cases h
    · rename_i x hsome
      split at h
      · cases h
      · cases k with
        | zero => rw [has_iff]; simp [hsome]
        | succ k => rw [show i + (k + 1) = i + 1 + k by omega]; exact ih _ _ h k (by omega)

theorem section_unique {cv : Conv} {t : Tree} {i : ℕ} {c c' : BcConf} (h : Section cv t i c) (h' : Section cv t i c') : c = c' :=
  Option.some.inj (((read_iff cv t i c).2 h).symm.trans ((read_iff cv t i c').2 h'))

/-! ## Properties -/

/-- C63: reading always ends. -/
theorem C63_terminates (cv : Conv) (t : Tree) : ∃ r, parseBcs cv t = some r := by
  by_contra hno
  have hn : parseBcs cv t = none := by
    rcases h : parseBcs cv t with _ | r
    · rfl
    · exact absurd ⟨r, h⟩ hno
  have := sections_le t _ fun i hi => by simpa using scan_none cv t _ 0 [] hn i hi
  omega

/-- C63: reading succeeds with a list iff the list has an entry for each section numbered consecutively from zero up to the first gap, in order, with what that section
describes. Sections after the gap do not matter. -/
theorem C63_list_iff (cv : Conv) (t : Tree) (l : List BcConf) :
    parseBcs cv t = some (some l) ↔ (∀ (k : ℕ) (hk : k < l.length), Section cv t k l[k]) ∧ ¬ HasSection t l.length := by
  constructor
  · intro h
    rcases scan_spec cv t _ 0 [] _ h with ⟨l', hl, h1, h2⟩ | ⟨h0, -⟩
    · simp only [List.nil_append, Option.some.injEq] at hl
      subst hl
      simpa using And.intro h1 h2
    · cases h0
  · rintro ⟨h1, h2⟩
    obtain ⟨r, hr⟩ := C63_terminates cv t
    rw [hr]
    rcases scan_spec cv t _ 0 [] _ hr with ⟨l', rfl, h1', h2'⟩ | ⟨rfl, m, hm, hhas, hbad⟩
    · simp only [zero_add] at h1' h2'
      have hlen : l.length = l'.length := by
        rcases Nat.lt_trichotomy l.length l'.length with h | h | h
        · exact absurd (section_has (h1' _ h)) h2
        · exact h
        · exact absurd (section_has (h1 _ h)) h2'
      congr 2
      rw [List.nil_append]
      exact (List.ext_getElem hlen fun k hk hk' => section_unique (h1 k hk) (h1' k hk')).symm
    · exfalso
      simp only [zero_add] at hm hhas hbad
      rcases Nat.lt_or_ge m l.length with h | h
      · exact hbad _ (h1 m h)
      · rcases Nat.lt_or_ge l.length m with h' | h'
        · obtain ⟨c, hc⟩ := hm _ h'; exact h2 (section_has hc)
        · exact h2 (by rw [le_antisymm h h']; exact hhas)

/-- C63: an exception is thrown iff the first section that does not describe a boundary condition comes before the first gap. -/
theorem C63_throws_iff (cv : Conv) (t : Tree) :
    parseBcs cv t = some none ↔ ∃ m, (∀ k < m, ∃ c, Section cv t k c) ∧ HasSection t m ∧ ∀ c, ¬ Section cv t m c := by
  constructor
  · intro h
    rcases scan_spec cv t _ 0 [] _ h with ⟨l', hl, -⟩ | ⟨-, m, h⟩
    · cases hl
    · exact ⟨m, by simpa using h⟩
  · rintro ⟨m, h1, h2, h3⟩
    obtain ⟨r, hr⟩ := C63_terminates cv t
    rcases r with _ | l
    · exact hr
    · exfalso
      obtain ⟨ha, hb⟩ := (C63_list_iff cv t l).1 hr
      rcases Nat.lt_trichotomy m l.length with h | h | h
      · exact h3 _ (ha m h)
      · exact hb (h ▸ h2)
      · obtain ⟨c, hc⟩ := h1 _ h; exact hb (section_has hc)

/-! ## Concrete case -/

/-- Two walls, a farfield, and a section after a gap; entries in any order. -/
def exTree : Tree := .node "" [("io", .node "" []), ("bc", .node "" [
  ("bc1", .node "" [("marker", .node "5" []), ("type", .node "adiabaticwall" []), ("boundary_values", .node "20" [])]),
  ("bc0", .node "" [("type", .node "slipwall" []), ("marker", .node "4" [])]),
  ("listof_output_wall_boundaries", .node "4 5" []),
  ("bc2", .node "" [("type", .node "farfield" []), ("marker", .node "2" [])]),
  ("bc4", .node "" [("type", .node "periodic" [])])])]

def exConv : Conv where
  toInt := fun s => if s = "5" then some 5 else if s = "4" then some 4 else if s = "2" then some 2 else none
  reals := fun s => if s = "20" then [20] else []
  ints := fun _ => []
  lower := id

example : parseBcs exConv exTree = some (some [⟨.slipWall, 4, [], []⟩, ⟨.adiabaticWall, 5, [20], []⟩, ⟨.farfield, 2, [], []⟩]) := by
  rw [C63_list_iff]
  refine ⟨fun k hk => ?_, ?_⟩
  · simp only [List.length_cons, List.length_nil] at hk
    have h0 : key 0 = ["bc", "bc0"] := by decide
    have h1 : key (0 + 1) = ["bc", "bc1"] := by decide
    have h2 : key (0 + 1 + 1) = ["bc", "bc2"] := by decide
    rw [← read_iff]
    rcases k with _ | _ | _ | k
    · simp [readSection, h0, Tree.str, Tree.path, Tree.child, exTree, Tree.kids, Tree.data, exConv, BC.kindOfName, BC.typeMap, needsVals]
    · simp [readSection, h1, Tree.str, Tree.path, Tree.child, exTree, Tree.kids, Tree.data, exConv, BC.kindOfName, BC.typeMap, needsVals]
    · simp [readSection, h2, Tree.str, Tree.path, Tree.child, exTree, Tree.kids, Tree.data, exConv, BC.kindOfName, BC.typeMap, needsVals]
    · omega
  · rw [has_iff]
    decide

end Ctl
end FVENS
