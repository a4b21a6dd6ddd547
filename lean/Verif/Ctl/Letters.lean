import Verif.Ctl.Options

/-!
The case of letters in the names of options. Code: `get_upperCaseString` and `parse_flow_controlfile`, src/utilities/controlparser.cpp:37-39, 60-216.
-/

namespace FVENS
namespace Ctl

/-- Entries of a control file that are names of options. -/
def Names : List (List String) :=
  [["flow_conditions", "flow_type"], ["time", "simulation_type"], ["time", "time_integrator"],
   ["spatial_discretization", "inviscid_flux"], ["spatial_discretization", "gradient_method"], ["spatial_discretization", "limiter"],
   ["pseudotime", "pseudotime_stepping_type"], ["Jacobian_inviscid_flux"], ["pseudotime", "nonlinear_update_scheme"]]

/-- Two control files that differ only in how the names of options are written: the sections on boundaries are the same, the same optional
section is present, names agree after conversion to upper case, and all else is the same. -/
structure SameUpTo (cv : Conv2) (t t' : Tree) : Prop where
  names : ∀ p ∈ Names, (t.str p).map cv.upper = (t'.str p).map cv.upper
  rest : ∀ p, p ∉ Names → t.str p = t'.str p
  opt : (t.path ["pseudotime", "initialization"]).isSome = (t'.path ["pseudotime", "initialization"]).isSome
  bcs : t.child "bc" = t'.child "bc"

theorem scan_congr {cv : Conv} {t t' : Tree} (h : t.child "bc" = t'.child "bc") (n i : ℕ) (acc : List BcConf) :
    scan cv t n i acc = scan cv t' n i acc := by
  have hp : ∀ a l, t.path ("bc" :: a :: l) = t'.path ("bc" :: a :: l) := fun a l => by simp [Tree.path, h]
  induction n generalizing i acc with
  | zero => rfl
  | succ n ih =>
    simp only [scan, readSection, key, Tree.str, List.cons_append, List.nil_append, hp, ih]

/-- C65: the case of letters does not matter in the names of options: control files that differ only there give the same settings, or both
an exception. -/
theorem C65_letters {cv : Conv2} {t t' : Tree} (h : SameUpTo cv t t') (cmd : Option Bool) : parse cv cmd t = parse cv cmd t' := by
  have hu : ∀ p ∈ Names, getUpper cv t p = getUpper cv t' p := h.names
  have hr : ∀ p, p ∉ Names → getReal cv t p = getReal cv t' p := fun p hp => by rw [getReal, getReal, h.rest p hp]
  have hi : ∀ p, p ∉ Names → getInt cv t p = getInt cv t' p := fun p hp => by rw [getInt, getInt, h.rest p hp]
  have hb : ∀ p, p ∉ Names → getBool cv t p = getBool cv t' p := fun p hp => by rw [getBool, getBool, h.rest p hp]
  have hbc : parseBcs cv.toConv t = parseBcs cv.toConv t' := by
    rw [parseBcs, parseBcs, scan_congr h.bcs, h.bcs]
  have e1 : ioBlock cv cmd t = ioBlock cv cmd t' := by
    funext o; unfold ioBlock; rw [hb _ (by decide)]
  have e2 : flowBlock cv t = flowBlock cv t' := by
    funext o; unfold flowBlock
    rw [hu _ (by decide), hr ["flow_conditions", "adiabatic_index"] (by decide), hr ["flow_conditions", "angle_of_attack"] (by decide),
      hr ["flow_conditions", "freestream_Mach_number"] (by decide), hr ["flow_conditions", "freestream_temperature"] (by decide),
      hr ["flow_conditions", "freestream_Reynolds_number"] (by decide), hr ["flow_conditions", "Prandtl_number"] (by decide), hb _ (by decide)]
  have e3 : timeBlock cv t = timeBlock cv t' := by
    funext o; unfold timeBlock
    rw [hu ["time", "simulation_type"] (by decide), hu ["time", "time_integrator"] (by decide), hr ["time", "final_time"] (by decide),
      hi _ (by decide), hr ["time", "physical_cfl"] (by decide), hr ["time", "physical_time_step"] (by decide)]
  have e4 : spatialBlock cv t = spatialBlock cv t' := by
    funext o; unfold spatialBlock
    rw [hu ["spatial_discretization", "inviscid_flux"] (by decide), hu ["spatial_discretization", "gradient_method"] (by decide),
      hu ["spatial_discretization", "limiter"] (by decide)]
  have e5 : mainBlock cv t = mainBlock cv t' := by
    funext o; unfold mainBlock
    rw [hu _ (by decide), hr ["pseudotime", "main", "cfl_min"] (by decide), hr ["pseudotime", "main", "cfl_max"] (by decide),
      hr ["pseudotime", "main", "tolerance"] (by decide), hi _ (by decide)]
  have e6 : initBlock cv t = initBlock cv t' := by
    funext o; unfold initBlock
    rw [h.opt, hr ["pseudotime", "initialization", "cfl_min"] (by decide), hr ["pseudotime", "initialization", "cfl_max"] (by decide),
      hr ["pseudotime", "initialization", "tolerance"] (by decide), hi _ (by decide)]
  have e7 : implicitBlock cv t = implicitBlock cv t' := by
    funext o; unfold implicitBlock
    rw [hu ["Jacobian_inviscid_flux"] (by decide), hu ["pseudotime", "nonlinear_update_scheme"] (by decide), hr _ (by decide)]
  unfold parse
  rw [e1, e2, e3, e4, e5, e6, e7, hbc]

/-- The control file `docTree` with the kind of simulation written in another way. -/
def docSteady (name : String) : Tree :=
  .node "" ((docTree true).kids.map fun q => if q.1 = "time" then ("time", .node "" [("simulation_type", .node name [])]) else q)

/-- `docConv`, knowing the two ways of writing. -/
noncomputable def docConv' : Conv2 := { docConv with upper := fun s => if s = "Steady" then "STEADY" else docConv.upper s }

theorem docSteady_child (name : String) {k : String} (hk : k ≠ "time") : (docSteady name).child k = (docTree true).child k := by
  have : ∀ l : List (String × Tree),
      (l.map fun q => if q.1 = "time" then ("time", Tree.node "" [("simulation_type", .node name [])]) else q).find? (·.1 == k) = l.find? (·.1 == k) := by
    intro l
    induction l with
    | nil => rfl
    | cons q l ih =>
      obtain ⟨a, b⟩ := q
      by_cases ha : a = "time"
      · have : ("time" == k) = false := by simpa using Ne.symm hk
        simp only [List.map_cons, ha, if_true, List.find?_cons, this, ih]
      · simp only [List.map_cons, ha, if_false, List.find?_cons, ih]
  show Option.map _ (List.find? _ (List.map _ _)) = _
  rw [this]
  rfl

/-- The documented control file with `steady` and with `Steady`. -/
theorem docSteady_same : SameUpTo docConv' (docSteady "steady") (docSteady "Steady") where
  names := by
    intro p hp
    have h1 : ∀ k l, k ≠ "time" → (docSteady "steady").str (k :: l) = (docSteady "Steady").str (k :: l) := fun k l hk => by
      simp [Tree.str, Tree.path, docSteady_child _ hk]
    simp only [Names, List.mem_cons, List.not_mem_nil, or_false] at hp
    rcases hp with rfl | rfl | rfl | rfl | rfl | rfl | rfl | rfl | rfl
    · rw [h1 _ _ (by decide)]
    · simp [Tree.str, Tree.path, Tree.child, docSteady, docTree, Tree.kids, Tree.data, docConv', docConv, List.lookup]
    · simp [Tree.str, Tree.path, Tree.child, docSteady, docTree, Tree.kids]
    all_goals rw [h1 _ _ (by decide)]
  rest := by
    intro p hp
    rcases p with _ | ⟨k, l⟩
    · rfl
    · by_cases hk : k = "time"
      · subst hk
        have hc : ∀ n, (docSteady n).child "time" = some (.node "" [("simulation_type", .node n [])]) := fun n => rfl
        rcases l with _ | ⟨a, l⟩
        · simp [Tree.str, Tree.path, hc, Tree.data]
        · by_cases ha : a = "simulation_type"
          · subst ha
            rcases l with _ | ⟨b, l⟩
            · exact absurd (by decide) hp
            · have : ∀ n, (docSteady n).str ("time" :: "simulation_type" :: b :: l) = none := fun n => by
                simp only [Tree.str, Tree.path, hc, Option.bind_some]
                simp [Tree.child, Tree.kids]
              rw [this, this]
          · have : ∀ n, (docSteady n).str ("time" :: a :: l) = none := fun n => by
              simp only [Tree.str, Tree.path, hc, Option.bind_some]
              simp [Tree.child, Tree.kids, Ne.symm ha]
            rw [this, this]
      · simp [Tree.str, Tree.path, docSteady_child _ hk]
  opt := rfl
  bcs := by rw [docSteady_child _ (by decide), docSteady_child _ (by decide)]

example (cmd : Option Bool) : parse docConv' cmd (docSteady "steady") = parse docConv' cmd (docSteady "Steady") := C65_letters docSteady_same cmd

end Ctl
end FVENS
