import Verif.Phys.Model

/-!
# Boundary conditions (model of `src/spatial/abc.cpp`, `src/spatial/abctypemap.cpp`)

Each boundary condition maps an interior state and the outward unit face normal to a ghost
state; the Jacobian routine returns a ghost state and the rows `dgs[i*NVARS + ·]`.
-/

namespace FVENS
namespace BC

/-- Result of `computeGhostStateAndJacobian`: ghost state and rows of its Jacobian. -/
structure GJ where
  gs : St
  dgs : Fin 4 → St

/-- Normal Mach number used by `InOutFlow`, src/spatial/abc.cpp:52-54. -/
noncomputable def machN (G : Gas) (ins : St) (n : V2) : ℝ :=
  dot (mom ins) n / ins 0 / G.soundSpeedC ins

/-- `InOutFlow::computeGhostState`, src/spatial/abc.cpp:49-84. -/
noncomputable def inOut (G : Gas) (uinf : St) (ins : St) (n : V2) : St :=
  let pinf := G.freestreamPressure
  if machN G ins n ≤ 0 then uinf
  else if machN G ins n < 1 then
    ![ins 0, ins 1, ins 2, G.energyOfP pinf (ins 0) (dot (mom ins) (mom ins) / (ins 0 * ins 0))]
  else ins

/-- Identity Jacobian, e.g. src/spatial/abc.cpp:135-138, 433-436. -/
def idJac : Fin 4 → St := fun i => Pi.single i 1

/-- `InOutFlow::computeGhostStateAndJacobian`, src/spatial/abc.cpp:87-140. -/
noncomputable def inOutJ (G : Gas) (uinf : St) (ins : St) (n : V2) : GJ :=
  let pinf := G.pressure uinf
  if machN G ins n ≤ 0 then ⟨uinf, fun _ => 0⟩
  else if machN G ins n ≤ 1 then
    ⟨![ins 0, ins 1, ins 2, G.energyOfP pinf (ins 0) (dot (mom ins) (mom ins) / (ins 0 * ins 0))],
     ![![1, 0, 0, 0], ![0, 1, 0, 0], ![0, 0, 1, 0],
       ![-(1 / 2) * dot (mom ins) (mom ins) / (ins 0 * ins 0), ins 1 / ins 0, ins 2 / ins 0, 0]]⟩
  else ⟨ins, idJac⟩

/-- Intermediate values of `InFlow::computeGhostState`, src/spatial/abc.cpp:155-168. -/
noncomputable def inflowRminus (G : Gas) (ins : St) (n : V2) : ℝ :=
  dot (mom ins) n / ins 0 - G.soundSpeedC ins / (2 * G.g - 1)

/-- src/spatial/abc.cpp:159. -/
noncomputable def inflowCo2 (G : Gas) (ins : St) : ℝ :=
  G.soundSpeedC ins * G.soundSpeedC ins
    + (G.g - 1) / 2 * dot (mom ins) (mom ins) / (ins 0 * ins 0)

/-- Argument of the square root in src/spatial/abc.cpp:161. -/
noncomputable def inflowRad (G : Gas) (ins : St) (n : V2) : ℝ :=
  (G.g + 1) * inflowCo2 G ins / ((G.g - 1) * inflowRminus G ins n * inflowRminus G ins n)
    - (G.g - 1) / 2

/-- src/spatial/abc.cpp:164. -/
noncomputable def inflowCg (G : Gas) (ins : St) (n : V2) : ℝ :=
  -(inflowRminus G ins n) * (G.g - 1) / (G.g + 1) * (1 + Real.sqrt (inflowRad G ins n))

/-- `InFlow::computeGhostState`, src/spatial/abc.cpp:152-176.  (Square roots of negative numbers
are NaN in the code; the theorems assume non-negative radicands.) -/
noncomputable def inflow (G : Gas) (ptotal ttotal : ℝ) (ins : St) (n : V2) : St :=
  let co2 := inflowCo2 G ins
  let cg := inflowCg G ins n
  let tg := ttotal * cg * cg / co2
  let pg := ptotal * (tg / ttotal) ^ (G.g / (G.g - 1))
  let d := G.densityOfPT pg tg
  let vgmag := Real.sqrt (2 / (G.g - 1) * (co2 - cg * cg))
  -- `getComponentsCartesian`, src/mathutils.hpp:40-60, with `NDIM = 2`
  let vg : V2 := ![vgmag * 1 * n 0, vgmag * 1 * n 1]
  ![d, d * vg 0, d * vg 1, G.energyOfP pg d (vgmag * vgmag)]

/-- `Farfield::computeGhostState`, src/spatial/abc.cpp:194-199. -/
def farfield (uinf : St) (_ins : St) (_n : V2) : St := uinf

/-- `Farfield::computeGhostStateAndJacobian`, src/spatial/abc.cpp:202-210. -/
def farfieldJ (uinf : St) (_ins : St) (_n : V2) : GJ := ⟨uinf, fun _ => 0⟩

/-- `Slipwall::computeGhostState`, src/spatial/abc.cpp:218-226. -/
noncomputable def slip (ins : St) (n : V2) : St :=
  let vni := dot (mom ins) n / ins 0
  ![ins 0, ins 1 - 2 * vni * n 0 * ins 0, ins 2 - 2 * vni * n 1 * ins 0, ins 3]

/-- `Slipwall::computeGhostStateAndJacobian`, src/spatial/abc.cpp:229-262. -/
noncomputable def slipJ (ins : St) (n : V2) : GJ :=
  let vni := dot (mom ins) n / ins 0
  let dvni : St := ![-vni / ins 0, n 0 / ins 0, n 1 / ins 0, 0]
  ⟨![ins 0, ins 1 - 2 * n 0 * vni * ins 0, ins 2 - 2 * n 1 * vni * ins 0, ins 3],
   ![![1, 0, 0, 0],
     ![-2 * n 0 * (dvni 0 * ins 0 + vni), 1 - 2 * n 0 * dvni 1 * ins 0, -2 * n 0 * dvni 2 * ins 0, 0],
     ![-2 * n 1 * (dvni 0 * ins 0 + vni), -2 * n 1 * dvni 1 * ins 0, 1 - 2 * n 1 * dvni 2 * ins 0, 0],
     ![0, 0, 0, 1]]⟩

/-- `Adiabaticwall2D::computeGhostState`, src/spatial/abc.cpp:272-280. -/
def adiabatic (tangvel : ℝ) (ins : St) (n : V2) : St :=
  let tm := tangvel * ins 0
  ![ins 0, 2 * tm * n 1 - ins 1, -2 * tm * n 0 - ins 2, ins 3]

/-- `Adiabaticwall2D::computeGhostStateAndJacobian`, src/spatial/abc.cpp:283-305. -/
def adiabaticJ (tangvel : ℝ) (ins : St) (n : V2) : GJ :=
  let tm := tangvel * ins 0
  ⟨![ins 0, 2 * tm * n 1 - ins 1, -2 * tm * n 0 - ins 2, ins 3],
   ![![1, 0, 0, 0], ![2 * tangvel * n 1, -1, 0, 0], ![-2 * tangvel * n 0, 0, -1, 0], ![0, 0, 0, 1]]⟩

/-- `Adiabaticwall::computeGhostState`, src/spatial/abc.cpp:314-321.  The wall velocity is an
array; element `i` is read for `i = 1..NDIM` as in the code.  A read past the end is undefined
behaviour and yields `none`. -/
def adiabaticVec (wallvel : List ℝ) (ins : St) (_n : V2) : Option St := do
  let w1 ← wallvel[1]?
  let w2 ← wallvel[2]?
  return ![ins 0, 2 * ins 0 * w1 - ins 1, 2 * ins 0 * w2 - ins 2, ins 3]

/-- `Isothermalwall2D::computeGhostState`, src/spatial/abc.cpp:354-369. -/
noncomputable def isothermal (G : Gas) (tangvel wallT : ℝ) (ins : St) (n : V2) : St :=
  let p := G.pressure ins
  let gtemp := 2 * wallT - G.temperature (ins 0) p
  let g0 := ins 0
  let g1 := g0 * (2 * tangvel * n 1 - ins 1 / ins 0)
  let g2 := g0 * (-2 * tangvel * n 0 - ins 2 / ins 0)
  let vmag2 := (g1 * g1 + g2 * g2) / (g0 * g0)
  ![g0, g1, g2, G.energyOfT gtemp g0 vmag2]

/-- `Isothermalwall2D::computeGhostStateAndJacobian`, src/spatial/abc.cpp:372-409. -/
noncomputable def isothermalJ (G : Gas) (tangvel wallT : ℝ) (ins : St) (n : V2) : GJ :=
  let tm := tangvel * ins 0
  let g1 := 2 * tm * n 1 - ins 1
  let g2 := -2 * tm * n 0 - ins 2
  let vmag2 := (g1 * g1 + g2 * g2) / (ins 0 * ins 0)
  let dvmag2 : St := ![-2 * (g1 * g1 + g2 * g2) / (ins 0 * ins 0 * ins 0),
    1 / (ins 0 * ins 0) * g1 * (-1), 1 / (ins 0 * ins 0) * g2 * (-1), 0]
  ⟨![ins 0, g1, g2, G.energyOfT wallT (ins 0) vmag2],
   ![![1, 0, 0, 0], ![2 * tangvel * n 1, -1, 0, 0], ![-2 * tangvel * n 0, 0, -1, 0],
     G.dEnergyOfT wallT (ins 0) vmag2 0 dvmag2]⟩

/-- `Extrapolation::computeGhostState`, src/spatial/abc.cpp:417-423. -/
def extrapolation (ins : St) (_n : V2) : St := ins

/-- `Extrapolation::computeGhostStateAndJacobian`, src/spatial/abc.cpp:426-437. -/
def extrapolationJ (ins : St) (_n : V2) : GJ := ⟨ins, idJac⟩

/-! ### Kinds, names and construction -/

/-- `enum BCType`, src/spatial/abctypes.hpp:12-21. -/
inductive Kind
  | slipWall | farfield | inflowOutflow | subsonicInflow | extrapolation | periodic
  | isothermalWall | adiabaticWall
  deriving DecidableEq, Repr

/-- The relation inserted into the bidirectional map, src/spatial/abctypemap.cpp:16-31, in
insertion order. -/
def typeMap : List (Kind × String) :=
  [(.slipWall, "slipwall"), (.isothermalWall, "isothermalwall"), (.adiabaticWall, "adiabaticwall"),
   (.farfield, "farfield"), (.inflowOutflow, "inflowoutflow"), (.subsonicInflow, "subsonic_inflow"),
   (.extrapolation, "extrapolation"), (.periodic, "periodic")]

/-- `bcTypeMap.right.at(s)` (used in src/utilities/controlparser.cpp:248-290): `none` is the
exception `std::out_of_range`. -/
def kindOfName (s : String) : Option Kind := (typeMap.find? (fun e => e.2 == s)).map (·.1)

/-- `bcTypeMap.left.at(k)`. -/
def nameOfKind (k : Kind) : Option String := (typeMap.find? (fun e => e.1 == k)).map (·.2)

/-- `FlowBCConfig`, src/spatial/abc.hpp:33-40: tag, kind, real parameters. -/
structure Config where
  tag : ℤ
  kind : Kind
  vals : List ℝ

/-- A constructed boundary condition object. -/
inductive Obj
  | slip | farfield (uinf : St) | inOut (uinf : St) | inflow (pt tt : ℝ) | extrapolation
  | adiabatic (tv : ℝ) | isothermal (tv tw : ℝ)

/-- Outcomes of C++ code: normal, thrown exception, undefined behaviour. -/
inductive Res (α : Type)
  | ok (a : α) | throws | ub
  deriving DecidableEq

/-- Body of the switch in `create_const_flowBCs`, src/spatial/abc.cpp:470-495. -/
def mkObj (uinf : St) (c : Config) : Res Obj :=
  match c.kind with
  | .slipWall => .ok .slip
  | .farfield => .ok (.farfield uinf)
  | .inflowOutflow => .ok (.inOut uinf)
  | .subsonicInflow =>
    match c.vals with
    | a :: b :: _ => .ok (.inflow a b)
    | _ => .ub
  | .extrapolation => .ok .extrapolation
  | .adiabaticWall =>
    match c.vals with
    | a :: _ => .ok (.adiabatic a)
    | _ => .ub
  | .isothermalWall =>
    match c.vals with
    | a :: b :: _ => .ok (.isothermal a b)
    | _ => .ub
  | .periodic => .throws

/-- The loop of `create_const_flowBCs`, src/spatial/abc.cpp:467-498; the `std::map` is modelled as
a function from tags. -/
def mkAll (uinf : St) : (ℤ → Option Obj) → List Config → Res (ℤ → Option Obj)
  | m, [] => .ok m
  | m, c :: cs =>
    match mkObj uinf c with
    | .ok o => mkAll uinf (fun t => if t = c.tag then some o else m t) cs
    | .throws => .throws
    | .ub => .ub

/-- `create_const_flowBCs`, src/spatial/abc.cpp:461-500. -/
def createFlowBCs (uinf : St) (cs : List Config) : Res (ℤ → Option Obj) :=
  mkAll uinf (fun _ => none) cs

/-- Virtual call `computeGhostState` on a constructed object. -/
noncomputable def Obj.ghost (G : Gas) : Obj → St → V2 → St
  | .slip => FVENS.BC.slip
  | .farfield ui => FVENS.BC.farfield ui
  | .inOut ui => FVENS.BC.inOut G ui
  | .inflow a b => FVENS.BC.inflow G a b
  | .extrapolation => FVENS.BC.extrapolation
  | .adiabatic tv => FVENS.BC.adiabatic tv
  | .isothermal tv tw => FVENS.BC.isothermal G tv tw

end BC
end FVENS
