import Verif.Phys.Model
import Verif.BC.Model

/-!
# Inviscid numerical fluxes (model of `src/spatial/anumericalflux.{hpp,cpp}`)

Each `get_flux` first calls `getVarsFromConserved` (and mostly `getSoundSpeed`) for both sides;
these values are the arguments `vni pi Hi ci` / `vnj pj Hj cj` of the `...Core` definitions, which
transcribe the remaining lines.  The Jacobian routines return minus the derivative with respect to
the left state and plus the derivative with respect to the right state, as rows.
-/

namespace FVENS
namespace Flux

/-- Sound speed computed by the fluxes: `getSoundSpeed(u[0], p)` with `p` from
`getVarsFromConserved`, e.g. src/spatial/anumericalflux.cpp:47-50. -/
noncomputable def cSide (G : Gas) (u : St) : ℝ := G.soundSpeed (u 0) (G.varsP u)

/-- Pair of blocks returned by `get_jacobian` (`dfdl`, `dfdr`), row major. -/
structure FJ where
  dfdl : Fin 4 → St
  dfdr : Fin 4 → St

/-- `x ? 1.0 : 0.0` on equality of indices, src/spatial/anumericalflux.cpp:1346. -/
def delta (i k : Fin 4) : ℝ := if i = k then 1 else 0

/-! ### Local Lax-Friedrichs -/

/-- Spectral radius, src/spatial/anumericalflux.cpp:52-53. -/
noncomputable def llfEig (vni ci vnj cj : ℝ) : ℝ :=
  if |vni| + ci > |vnj| + cj then |vni| + ci else |vnj| + cj

/-- `LocalLaxFriedrichsFlux::get_flux`, src/spatial/anumericalflux.cpp:41-61. -/
noncomputable def llf (G : Gas) (ul ur : St) (n : V2) : St :=
  let eig := llfEig (Gas.varsVn ul n) (cSide G ul) (Gas.varsVn ur n) (cSide G ur)
  fun i => 1 / 2 * (G.eulerFlux ul n i + G.eulerFlux ur n i - eig * (ur i - ul i))

/-- Spectral radius in the Jacobian routines, src/spatial/anumericalflux.cpp:77-85
(`>=` instead of `>`). -/
noncomputable def llfEigJ (vni ci vnj cj : ℝ) : ℝ :=
  if |vni| + ci ≥ |vnj| + cj then |vni| + ci else |vnj| + cj

/-- `LocalLaxFriedrichsFlux::get_jacobian` (frozen spectral radius),
src/spatial/anumericalflux.cpp:66-107. -/
noncomputable def llfJac (G : Gas) (ul ur : St) (n : V2) : FJ :=
  let eig := llfEigJ (Gas.varsVn ul n) (cSide G ul) (Gas.varsVn ur n) (cSide G ur)
  ⟨fun i j => -(1 / 2) * (G.dEulerFlux ul n i j - (if i = j then -eig else 0)),
   fun i j => 1 / 2 * (G.dEulerFlux ur n i j - (if i = j then eig else 0))⟩

/-- Derivative of the spectral radius of one side in `get_jacobian_2`,
src/spatial/anumericalflux.cpp:141-153, 169-173. -/
noncomputable def llfDe (G : Gas) (u : St) (n : V2) : St :=
  let vn := Gas.varsVn u n
  let cterm := 1 / 2 / Real.sqrt (G.g * (G.g - 1) / u 0 * (u 3 - (u 1 * u 1 + u 2 * u 2) / (2 * u 0)))
  ![-|vn / (u 0 * u 0)| + cterm * G.g * (G.g - 1) * (-u 3 / (u 0 * u 0)
      + (u 1 * u 1 + u 2 * u 2) / (u 0 * u 0 * u 0)),
    (if vn > 0 then n 0 / u 0 else -n 0 / u 0) + cterm * G.g * (G.g - 1) * (-u 1 / u 0),
    (if vn > 0 then n 1 / u 0 else -n 1 / u 0) + cterm * G.g * (G.g - 1) * (-u 2 / u 0),
    cterm * G.g * (G.g - 1) / u 0]

/-- `LocalLaxFriedrichsFlux::get_jacobian_2` ("full linearization"),
src/spatial/anumericalflux.cpp:111-194. -/
noncomputable def llfJac2 (G : Gas) (ul ur : St) (n : V2) : FJ :=
  let vni := Gas.varsVn ul n
  let vnj := Gas.varsVn ur n
  let ci := cSide G ul
  let cj := cSide G ur
  let eig := llfEigJ vni ci vnj cj
  let leftismax := |vni| + ci ≥ |vnj| + cj
  ⟨fun i j => -(1 / 2) * (G.dEulerFlux ul n i j - (if i = j then -eig else 0)
      - (if leftismax then llfDe G ul n j else 0) * (ur i - ul i)),
   fun i j => 1 / 2 * (G.dEulerFlux ur n i j - (if i = j then eig else 0)
      - (if leftismax then 0 else llfDe G ur n j) * (ur i - ul i))⟩

/-! ### Van Leer -/

/-- Split flux of the left side, src/spatial/anumericalflux.cpp:219-231. -/
noncomputable def vlPlus (g : ℝ) (u : St) (n : V2) (vn p c : ℝ) : St :=
  let M := vn / c
  if M < -1 then 0
  else if M > 1 then Gas.dirFlux u n vn p
  else
    let vmags := (u 1 / u 0) ^ 2 + (u 2 / u 0) ^ 2
    let f0 := u 0 * c * (M + 1) ^ 2 / 4
    ![f0, f0 * (u 1 / u 0 + n 0 * (2 * c - vn) / g), f0 * (u 2 / u 0 + n 1 * (2 * c - vn) / g),
      f0 * ((vmags - vn * vn) / 2 + ((g - 1) * vn + 2 * c) ^ 2 / (2 * (g * g - 1)))]

/-- Split flux of the right side, src/spatial/anumericalflux.cpp:233-245. -/
noncomputable def vlMinus (g : ℝ) (u : St) (n : V2) (vn p c : ℝ) : St :=
  let M := vn / c
  if M > 1 then 0
  else if M < -1 then Gas.dirFlux u n vn p
  else
    let vmags := (u 1 / u 0) ^ 2 + (u 2 / u 0) ^ 2
    let f0 := -u 0 * c * (M - 1) ^ 2 / 4
    ![f0, f0 * (u 1 / u 0 + n 0 * (-2 * c - vn) / g), f0 * (u 2 / u 0 + n 1 * (-2 * c - vn) / g),
      f0 * ((vmags - vn * vn) / 2 + ((g - 1) * vn - 2 * c) ^ 2 / (2 * (g * g - 1)))]

/-- `VanLeerFlux::get_flux`, src/spatial/anumericalflux.cpp:203-250. -/
noncomputable def vanLeer (G : Gas) (ul ur : St) (n : V2) : St := fun i =>
  vlPlus G.g ul n (Gas.varsVn ul n) (G.varsP ul) (cSide G ul) i
    + vlMinus G.g ur n (Gas.varsVn ur n) (G.varsP ur) (cSide G ur) i

/-- `VanLeerFlux::get_jacobian` throws, src/spatial/anumericalflux.cpp:253-257. -/
def vanLeerJac : BC.Res FJ := .throws

/-! ### AUSM -/

/-- Split Mach number of the left side, src/spatial/anumericalflux.cpp:279-291. -/
noncomputable def ausmML (M : ℝ) : ℝ :=
  if |M| ≤ 1 then 1 / 4 * (M + 1) * (M + 1) else if M < -1 then 0 else M

/-- Split pressure of the left side, src/spatial/anumericalflux.cpp:279-291. -/
noncomputable def ausmPL (M p : ℝ) : ℝ :=
  if |M| ≤ 1 then 1 / 4 * (M + 1) * (M + 1) * p * (2 - M) else if M < -1 then 0 else p

/-- Split Mach number of the right side, src/spatial/anumericalflux.cpp:293-304. -/
noncomputable def ausmMR (M : ℝ) : ℝ :=
  if |M| ≤ 1 then -(1 / 4) * (M - 1) * (M - 1) else if M < -1 then M else 0

/-- Split pressure of the right side, src/spatial/anumericalflux.cpp:293-304. -/
noncomputable def ausmPR (M p : ℝ) : ℝ :=
  if |M| ≤ 1 then -(-(1 / 4) * (M - 1) * (M - 1)) * p * (2 + M) else if M < -1 then p else 0

/-- Final assembly of the AUSM flux, src/spatial/anumericalflux.cpp:310-314. -/
noncomputable def ausmCore (ul ur : St) (n : V2) (Mh ph pi pj ci cj : ℝ) : St :=
  ![Mh / 2 * (ul 0 * ci + ur 0 * cj) - |Mh| / 2 * (ur 0 * cj - ul 0 * ci),
    Mh / 2 * (ul 1 * ci + ur 1 * cj) - |Mh| / 2 * (ur 1 * cj - ul 1 * ci) + ph * n 0,
    Mh / 2 * (ul 2 * ci + ur 2 * cj) - |Mh| / 2 * (ur 2 * cj - ul 2 * ci) + ph * n 1,
    Mh / 2 * (ci * (ul 3 + pi) + cj * (ur 3 + pj)) - |Mh| / 2 * (cj * (ur 3 + pj) - ci * (ul 3 + pi))]

/-- `AUSMFlux::get_flux`, src/spatial/anumericalflux.cpp:265-315. -/
noncomputable def ausm (G : Gas) (ul ur : St) (n : V2) : St :=
  let pi := G.varsP ul
  let pj := G.varsP ur
  let ci := cSide G ul
  let cj := cSide G ur
  let Mni := Gas.varsVn ul n / ci
  let Mnj := Gas.varsVn ur n / cj
  ausmCore ul ur n (ausmML Mni + ausmMR Mnj) (ausmPL Mni pi + ausmPR Mnj pj) pi pj ci cj

/-- Derivative of the normal Mach number in the AUSM Jacobian,
src/spatial/anumericalflux.cpp:343-351. -/
noncomputable def ausmDM (u : St) (n : V2) (vn c : ℝ) (dc : St) : St :=
  ![(-1 / (u 0 * u 0) * (u 1 * n 0 + u 2 * n 1) * c - vn * dc 0) / (c * c),
    (n 0 / u 0 * c - vn * dc 1) / (c * c), (n 1 / u 0 * c - vn * dc 2) / (c * c),
    -vn * dc 3 / (c * c)]

/-- `dML`, src/spatial/anumericalflux.cpp:354-374. -/
noncomputable def ausmDML (M : ℝ) (dm : St) : St := fun k =>
  if |M| ≤ 1 then 1 / 2 * (M + 1) * dm k else if M < -1 then 0 else dm k

/-- `dpL`, src/spatial/anumericalflux.cpp:354-374. -/
noncomputable def ausmDPL (M p : ℝ) (dm dp : St) : St := fun k =>
  if |M| ≤ 1 then ausmDML M dm k * p * (2 - M) + ausmML M * dp k * (2 - M) - ausmML M * p * dm k
  else if M < -1 then 0 else dp k

/-- `dMR`, src/spatial/anumericalflux.cpp:376-396. -/
noncomputable def ausmDMR (M : ℝ) (dm : St) : St := fun k =>
  if |M| ≤ 1 then -(1 / 2) * (M - 1) * dm k else if M < -1 then dm k else 0

/-- `dpR`, src/spatial/anumericalflux.cpp:376-396. -/
noncomputable def ausmDPR (M p : ℝ) (dm dp : St) : St := fun k =>
  if |M| ≤ 1 then -ausmDMR M dm k * p * (2 + M) - ausmMR M * dp k * (2 + M) - ausmMR M * p * dm k
  else if M < -1 then dp k else 0

/-- `(Mhalf>=0 ? 1.0 : -1.0)`, src/spatial/anumericalflux.cpp:410. -/
noncomputable def sgn (x : ℝ) : ℝ := if x ≥ 0 then 1 else -1

/-- Rows of `dfdl` before the final sign change, src/spatial/anumericalflux.cpp:409-468.
`j` is the row, `k` the column. -/
noncomputable def ausmDL (ul ur : St) (n : V2) (Mh pi pj ci cj : ℝ) (dML dpL dpi dci : St)
    (j k : Fin 4) : ℝ :=
  match j with
  | 0 =>
    if k = 0 then
      dML 0 / 2 * (ul 0 * ci + ur 0 * cj) + Mh / 2 * (ci + ul 0 * dci 0)
        - (sgn Mh * dML 0 / 2 * (ur 0 * cj - ul 0 * ci) + |Mh| / 2 * (-ci - ul 0 * dci 0))
    else
      dML k / 2 * (ul 0 * ci + ur 0 * cj) + Mh / 2 * ul 0 * dci k
        - (sgn Mh * dML k / 2 * (ur 0 * cj - ul 0 * ci) - |Mh| / 2 * ul 0 * dci k)
  | 3 =>
    if k = 3 then
      dML 3 / 2 * (ci * (ul 3 + pi) + cj * (ur 3 + pj)) + Mh / 2 * (dci 3 * (ul 3 + pi) + ci * (1 + dpi 3))
        - (sgn Mh * dML 3 / 2 * (cj * (ur 3 + pj) - ci * (ul 3 + pi))
          + |Mh| / 2 * (-dci 3 * (ul 3 + pi) - ci * (1 + dpi 3)))
    else
      dML k / 2 * (ci * (ul 3 + pi) + cj * (ur 3 + pj)) + Mh / 2 * (dci k * (ul 3 + pi) + ci * dpi k)
        - (sgn Mh * dML k / 2 * (cj * (ur 3 + pj) - ci * (ul 3 + pi))
          + |Mh| / 2 * (-dci k * (ul 3 + pi) - ci * dpi k))
  | j =>
    let nj := if j = 1 then n 0 else n 1
    if k = j then
      dML j / 2 * (ul j * ci + ur j * cj) + Mh / 2 * (ci + ul j * dci j)
        - (sgn Mh * dML j / 2 * (ur j * cj - ul j * ci) + |Mh| / 2 * (-ci - ul j * dci j)) + dpL j * nj
    else
      dML k / 2 * (ul j * ci + ur j * cj) + Mh / 2 * ul j * dci k
        - (sgn Mh * dML k / 2 * (ur j * cj - ul j * ci) - |Mh| / 2 * ul j * dci k) + dpL k * nj

/-- Rows of `dfdr`, src/spatial/anumericalflux.cpp:413-468. -/
noncomputable def ausmDR (ul ur : St) (n : V2) (Mh pi pj ci cj : ℝ) (dMR dpR dpj dcj : St)
    (j k : Fin 4) : ℝ :=
  match j with
  | 0 =>
    if k = 0 then
      dMR 0 / 2 * (ul 0 * ci + ur 0 * cj) + Mh / 2 * (cj + ur 0 * dcj 0)
        - (sgn Mh * dMR 0 / 2 * (ur 0 * cj - ul 0 * ci) + |Mh| / 2 * (cj + ur 0 * dcj 0))
    else
      dMR k / 2 * (ul 0 * ci + ur 0 * cj) + Mh / 2 * ur 0 * dcj k
        - (sgn Mh * dMR k / 2 * (ur 0 * cj - ul 0 * ci) + |Mh| / 2 * ur 0 * dcj k)
  | 3 =>
    if k = 3 then
      dMR 3 / 2 * (ci * (ul 3 + pi) + cj * (ur 3 + pj)) + Mh / 2 * (dcj 3 * (ur 3 + pj) + cj * (1 + dpj 3))
        - (sgn Mh * dMR 3 / 2 * (cj * (ur 3 + pj) - ci * (ul 3 + pi))
          + |Mh| / 2 * (dcj 3 * (ur 3 + pj) + cj * (1 + dpj 3)))
    else
      dMR k / 2 * (ci * (ul 3 + pi) + cj * (ur 3 + pj)) + Mh / 2 * (dcj k * (ur 3 + pj) + cj * dpj k)
        - (sgn Mh * dMR k / 2 * (cj * (ur 3 + pj) - ci * (ul 3 + pi))
          + |Mh| / 2 * (dcj k * (ur 3 + pj) + cj * dpj k))
  | j =>
    let nj := if j = 1 then n 0 else n 1
    if k = j then
      dMR j / 2 * (ul j * ci + ur j * cj) + Mh / 2 * (cj + ur j * dcj j)
        - (sgn Mh * dMR j / 2 * (ur j * cj - ul j * ci) + |Mh| / 2 * (cj + ur j * dcj j)) + dpR j * nj
    else
      dMR k / 2 * (ul j * ci + ur j * cj) + Mh / 2 * ur j * dcj k
        - (sgn Mh * dMR k / 2 * (ur j * cj - ul j * ci) + |Mh| / 2 * ur j * dcj k) + dpR k * nj

/-- `AUSMFlux::get_jacobian`, src/spatial/anumericalflux.cpp:318-472. -/
noncomputable def ausmJac (G : Gas) (ul ur : St) (n : V2) : FJ :=
  let pi := G.varsP ul
  let pj := G.varsP ur
  let ci := cSide G ul
  let cj := cSide G ur
  let vni := Gas.varsVn ul n
  let vnj := Gas.varsVn ur n
  let Mni := vni / ci
  let Mnj := vnj / cj
  let dpi := G.dPressure ul
  let dpj := G.dPressure ur
  let dci := G.dSoundSpeed (ul 0) pi dpi ci
  let dcj := G.dSoundSpeed (ur 0) pj dpj cj
  let dmni := ausmDM ul n vni ci dci
  let dmnj := ausmDM ur n vnj cj dcj
  let Mh := ausmML Mni + ausmMR Mnj
  ⟨fun j k => -ausmDL ul ur n Mh pi pj ci cj (ausmDML Mni dmni) (ausmDPL Mni pi dmni dpi) dpi dci j k,
   ausmDR ul ur n Mh pi pj ci cj (ausmDMR Mnj dmnj) (ausmDPR Mnj pj dmnj dpj) dpj dcj⟩

/-! ### AUSM+ -/

/-- Critical sound speed, src/spatial/anumericalflux.cpp:494-495. -/
noncomputable def critC (g c vmag2 : ℝ) : ℝ :=
  Real.sqrt ((c * c / (g - 1) + 1 / 2 * vmag2) * 2 * (g - 1) / (g + 1))

/-- Interface sound speed, src/spatial/anumericalflux.cpp:494-508. -/
noncomputable def ausmpC (g ci cj vmag2i vmag2j vni vnj : ℝ) : ℝ :=
  let csi := critC g ci vmag2i
  let csj := critC g cj vmag2j
  let corri := if csi > vni then csi else vni
  let corrj := if csj > -vnj then csj else -vnj
  let csi' := csi * csi / corri
  let csj' := csj * csj / corrj
  if csi' < csj' then csi' else csj'

/-- Split Mach number and pressure of AUSM+, src/spatial/anumericalflux.cpp:513-538. -/
noncomputable def ausmpML (M : ℝ) : ℝ :=
  if |M| ≤ 1 then 1 / 4 * (M + 1) * (M + 1) + 1 / 8 * (M * M - 1) * (M * M - 1)
  else if M < -1 then 0 else M
/-- src/spatial/anumericalflux.cpp:513-525. -/
noncomputable def ausmpPL (M p : ℝ) : ℝ :=
  if |M| ≤ 1 then p * (1 / 4 * (M + 1) * (M + 1) * (2 - M) + 3 / 16 * M * (M * M - 1) * (M * M - 1))
  else if M < -1 then 0 else p
/-- src/spatial/anumericalflux.cpp:527-538. -/
noncomputable def ausmpMR (M : ℝ) : ℝ :=
  if |M| ≤ 1 then -(1 / 4) * (M - 1) * (M - 1) - 1 / 8 * (M * M - 1) * (M * M - 1)
  else if M < -1 then M else 0
/-- src/spatial/anumericalflux.cpp:527-538. -/
noncomputable def ausmpPR (M p : ℝ) : ℝ :=
  if |M| ≤ 1 then p * (1 / 4 * (M - 1) * (M - 1) * (2 + M) - 3 / 16 * M * (M * M - 1) * (M * M - 1))
  else if M < -1 then p else 0

/-- Final assembly of AUSM+, src/spatial/anumericalflux.cpp:545-548. -/
noncomputable def ausmpCore (ul ur : St) (n : V2) (ch Mh ph pi pj : ℝ) : St :=
  ![ch * (Mh / 2 * (ul 0 + ur 0) - |Mh| / 2 * (ur 0 - ul 0)),
    ch * (Mh / 2 * (ul 1 + ur 1) - |Mh| / 2 * (ur 1 - ul 1)) + ph * n 0,
    ch * (Mh / 2 * (ul 2 + ur 2) - |Mh| / 2 * (ur 2 - ul 2)) + ph * n 1,
    ch * (Mh / 2 * (ul 3 + pi + ur 3 + pj) - |Mh| / 2 * ((ur 3 + pj) - (ul 3 + pi)))]

/-- Interface sound speed of the two states, src/spatial/anumericalflux.cpp:483-508. -/
noncomputable def ausmpCOf (G : Gas) (ul ur : St) (n : V2) : ℝ :=
  ausmpC G.g (cSide G ul) (cSide G ur) (dot (Gas.vel ul) (Gas.vel ul))
    (dot (Gas.vel ur) (Gas.vel ur)) (Gas.varsVn ul n) (Gas.varsVn ur n)

/-- `AUSMPlusFlux::get_flux`, src/spatial/anumericalflux.cpp:480-554. -/
noncomputable def ausmPlus (G : Gas) (ul ur : St) (n : V2) : St :=
  let pi := G.varsP ul
  let pj := G.varsP ur
  let ch := ausmpCOf G ul ur n
  let Mni := Gas.varsVn ul n / ch
  let Mnj := Gas.varsVn ur n / ch
  ausmpCore ul ur n ch (ausmpML Mni + ausmpMR Mnj) (ausmpPL Mni pi + ausmpPR Mnj pj) pi pj

/-- `AUSMPlusFlux::get_jacobian` prints a message and leaves the output arrays as they were,
src/spatial/anumericalflux.cpp:557-561. -/
def ausmPlusJac (before : FJ) (_ul _ur : St) (_n : V2) : FJ := before

/-! ### Roe averages -/

/-- Output of `getRoeAverages`. -/
structure Avg where
  R : ℝ
  rho : ℝ
  v : V2
  vm2 : ℝ
  vn : ℝ
  H : ℝ
  c : ℝ

/-- `getRoeAverages`, src/spatial/anumericalflux.hpp:175-189. -/
noncomputable def roeAvg (g : ℝ) (ul ur : St) (n : V2) (vi : V2) (Hi : ℝ) (vj : V2) (Hj : ℝ) : Avg :=
  let R := Real.sqrt (ur 0 / ul 0)
  let v : V2 := ![(R * vj 0 + vi 0) / (R + 1), (R * vj 1 + vi 1) / (R + 1)]
  let H := (R * Hj + Hi) / (R + 1)
  let vm2 := dot v v
  ⟨R, R * ul 0, v, vm2, dot v n, H, Real.sqrt ((g - 1) * (H - vm2 * (1 / 2)))⟩

/-- Roe averages of two states. -/
noncomputable def roeOf (G : Gas) (ul ur : St) (n : V2) : Avg :=
  roeAvg G.g ul ur n (Gas.vel ul) (G.varsH ul) (Gas.vel ur) (G.varsH ur)

/-- One side's rows of `getJacobiansRoeAveragesWrtConserved`. -/
structure DAvg where
  dR : St
  drho : St
  dvx : St
  dvy : St
  dvm2 : St
  dvn : St
  dH : St
  dc : St

/-- `getJacobiansRoeAveragesWrtConserved`, left rows, src/spatial/anumericalflux.cpp:569-660. -/
noncomputable def dRoeI (g : ℝ) (ul ur : St) (n : V2) (vi : V2) (Hi : ℝ) (vj : V2) (Hj : ℝ) (dHi : St) :
    DAvg :=
  let a := roeAvg g ul ur n vi Hi vj Hj
  let dR : St := ![1 / 2 / a.R * (-ur 0) / (ul 0 * ul 0), 0, 0, 0]
  let rden2 := (a.R + 1) * (a.R + 1)
  let dvx : St := ![((dR 0 * ur 1 / ur 0 - ul 1 / (ul 0 * ul 0)) * (a.R + 1) - (a.R * vj 0 + vi 0) * dR 0) / rden2,
    ((dR 1 * ur 1 / ur 0 + 1 / ul 0) * (a.R + 1) - (a.R * vj 0 + vi 0) * dR 1) / rden2,
    (dR 2 * ur 1 / ur 0 * (a.R + 1) - (a.R * vj 0 + vi 0) * dR 2) / rden2,
    (dR 3 * ur 1 / ur 0 * (a.R + 1) - (a.R * vj 0 + vi 0) * dR 3) / rden2]
  let dvy : St := ![((ur 2 / ur 0 * dR 0 - ul 2 / (ul 0 * ul 0)) * (a.R + 1) - (a.R * vj 1 + vi 1) * dR 0) / rden2,
    (ur 2 / ur 0 * dR 1 * (a.R + 1) - (a.R * vj 1 + vi 1) * dR 1) / rden2,
    ((ur 2 / ur 0 * dR 2 + 1 / ul 0) * (a.R + 1) - (a.R * vj 1 + vi 1) * dR 2) / rden2,
    (ur 2 / ur 0 * dR 3 * (a.R + 1) - (a.R * vj 1 + vi 1) * dR 3) / rden2]
  let dvm2 : St := fun k => 2 * (a.v 0 * dvx k + a.v 1 * dvy k)
  { dR := dR
    drho := ![dR 0 * ul 0 + a.R, 0, 0, 0]
    dvx := dvx
    dvy := dvy
    dvm2 := dvm2
    dvn := fun k => dvx k * n 0 + dvy k * n 1
    dH := fun k => ((dR k * Hj + dHi k) * (a.R + 1) - (a.R * Hj + Hi) * dR k) / rden2
    dc := fun k => 1 / 2 / a.c * (g - 1) *
      (((dR k * Hj + dHi k) * (a.R + 1) - (a.R * Hj + Hi) * dR k) / rden2 - 1 / 2 * dvm2 k) }

/-- `getJacobiansRoeAveragesWrtConserved`, right rows, src/spatial/anumericalflux.cpp:569-660. -/
noncomputable def dRoeJ (g : ℝ) (ul ur : St) (n : V2) (vi : V2) (Hi : ℝ) (vj : V2) (Hj : ℝ) (dHj : St) :
    DAvg :=
  let a := roeAvg g ul ur n vi Hi vj Hj
  let dR : St := ![1 / 2 / a.R / ul 0, 0, 0, 0]
  let rden2 := (a.R + 1) * (a.R + 1)
  let dvx : St := ![((dR 0 * ur 1 / ur 0 + a.R / (ur 0 * ur 0) * (-ur 1)) * (a.R + 1) - (a.R * vj 0 + vi 0) * dR 0) / rden2,
    ((dR 1 * ur 1 / ur 0 + a.R / ur 0) * (a.R + 1) - (a.R * vj 0 + vi 0) * dR 1) / rden2,
    (dR 2 * ur 1 / ur 0 * (a.R + 1) - (a.R * vj 0 + vi 0) * dR 2) / rden2,
    (dR 3 * ur 1 / ur 0 * (a.R + 1) - (a.R * vj 0 + vi 0) * dR 3) / rden2]
  let dvy : St := ![((dR 0 * ur 2 / ur 0 + a.R / (ur 0 * ur 0) * (-ur 2)) * (a.R + 1) - (a.R * vj 1 + vi 1) * dR 0) / rden2,
    (dR 1 * ur 2 / ur 0 * (a.R + 1) - (a.R * vj 1 + vi 1) * dR 1) / rden2,
    ((dR 2 * ur 2 / ur 0 + a.R / ur 0) * (a.R + 1) - (a.R * vj 1 + vi 1) * dR 2) / rden2,
    (dR 3 * ur 2 / ur 0 * (a.R + 1) - (a.R * vj 1 + vi 1) * dR 3) / rden2]
  let dvm2 : St := fun k => 2 * (a.v 0 * dvx k + a.v 1 * dvy k)
  { dR := dR
    drho := ![dR 0 * ul 0, 0, 0, 0]
    dvx := dvx
    dvy := dvy
    dvm2 := dvm2
    dvn := fun k => dvx k * n 0 + dvy k * n 1
    dH := fun k => ((dR k * Hj + a.R * dHj k) * (a.R + 1) - (a.R * Hj + Hi) * dR k) / rden2
    dc := fun k => 1 / 2 / a.c * (g - 1) *
      (((dR k * Hj + a.R * dHj k) * (a.R + 1) - (a.R * Hj + Hi) * dR k) / rden2 - 1 / 2 * dvm2 k) }

/-! ### Roe -/

/-- `fixeps`, src/spatial/anumericalflux.cpp:664. -/
noncomputable def fixeps : ℝ := 1 / 10000

/-- Harten entropy fix, src/spatial/anumericalflux.cpp:687-693. -/
noncomputable def harten (del l : ℝ) : ℝ := if l < del then (l * l + del * del) / (2 * del) else l

/-- Eigenvalues before the fix, src/spatial/anumericalflux.cpp:680-684. -/
noncomputable def roeL0 (a : Avg) : St := ![|a.vn - a.c|, |a.vn|, |a.vn|, |a.vn + a.c|]

/-- Eigenvalues after the fix, src/spatial/anumericalflux.cpp:686-693. -/
noncomputable def roeL (a : Avg) : St := fun k => harten (fixeps * a.c) (roeL0 a k)

/-- Products of eigenvalues and wave strengths, src/spatial/anumericalflux.cpp:701-705. -/
noncomputable def roeLA (a : Avg) (l : St) (dep devn derho : ℝ) : St :=
  ![l 0 * (dep - a.rho * a.c * devn) / (2 * a.c * a.c), l 1 * (derho - dep / (a.c * a.c)),
    l 1 * a.rho, l 3 * (dep + a.rho * a.c * devn) / (2 * a.c * a.c)]

/-- Dissipation vector, src/spatial/anumericalflux.cpp:707-723; `dv` is `vj - vi`. -/
noncomputable def roeADU (a : Avg) (la : St) (n dv : V2) (devn : ℝ) : St :=
  ![la 0 + la 1 + la 3,
    la 0 * (a.v 0 - a.c * n 0) + (la 1 * a.v 0 + la 2 * (dv 0 - devn * n 0)) + la 3 * (a.v 0 + a.c * n 0),
    la 0 * (a.v 1 - a.c * n 1) + (la 1 * a.v 1 + la 2 * (dv 1 - devn * n 1)) + la 3 * (a.v 1 + a.c * n 1),
    la 0 * (a.H - a.c * a.vn) + (la 1 * a.vm2 / 2 + la 2 * (a.v 0 * dv 0 + a.v 1 * dv 1 - a.vn * devn))
      + la 3 * (a.H + a.c * a.vn)]

/-- `RoeFlux::get_flux`, src/spatial/anumericalflux.cpp:668-732. -/
noncomputable def roe (G : Gas) (ul ur : St) (n : V2) : St :=
  let vni := Gas.varsVn ul n
  let vnj := Gas.varsVn ur n
  let pi := G.varsP ul
  let pj := G.varsP ur
  let a := roeOf G ul ur n
  let la := roeLA a (roeL a) (pj - pi) (vnj - vni) (ur 0 - ul 0)
  let dv : V2 := ![Gas.vel ur 0 - Gas.vel ul 0, Gas.vel ur 1 - Gas.vel ul 1]
  let adu := roeADU a la n dv (vnj - vni)
  fun i => 1 / 2 * (Gas.dirFlux ul n vni pi i + Gas.dirFlux ur n vnj pj i - adu i)

/-- Eigenvalue derivatives before the fix, src/spatial/anumericalflux.cpp:788-800. -/
noncomputable def roeDL0 (a : Avg) (d : DAvg) : Fin 4 → St :=
  ![fun k => sgn (a.vn - a.c) * (d.dvn k - d.dc k), fun k => sgn a.vn * d.dvn k,
    fun k => sgn a.vn * d.dvn k, fun k => sgn (a.vn + a.c) * (d.dvn k + d.dc k)]

/-- Eigenvalue derivatives after the fix, src/spatial/anumericalflux.cpp:802-818.  As in the code,
`l[ivar]` on the right-hand side of the derivative is the value *after* it was overwritten. -/
noncomputable def roeDL (a : Avg) (d : DAvg) : Fin 4 → St := fun i k =>
  let del := fixeps * a.c
  if roeL0 a i < del then
    ((2 * (roeL a i * roeDL0 a d i k + del * fixeps * d.dc k) * 2 * del)
      - (roeL a i * roeL a i + del * del) * 2 * fixeps * d.dc k) / (4 * del * del)
  else roeDL0 a d i k

/-- Derivatives of the `lalpha` and of the dissipation vector for one side,
src/spatial/anumericalflux.cpp:820-946.  `ddep`, `ddevn`, `dderho`, `ddv` are the derivatives of
`pj-pi`, `vnj-vni`, `rhoj-rhoi`, `vj-vi` with respect to that side's state: the code writes the
left and right versions separately, they differ only in these (`-dpi` versus `dpj` etc.). -/
noncomputable def roeDLA (a : Avg) (d : DAvg) (l : St) (dl : Fin 4 → St) (dep devn derho : ℝ)
    (ddep ddevn dderho : St) : Fin 4 → St :=
  let c4 := a.c * a.c * a.c * a.c
  ![fun k => ((dl 0 k * (dep - a.rho * a.c * devn) + l 0 * (ddep k - d.drho k * a.c * devn
        - a.rho * d.dc k * devn - a.rho * a.c * ddevn k)) * 2 * a.c * a.c
        - l 0 * (dep - a.rho * a.c * devn) * 4 * a.c * d.dc k) / (4 * c4),
    fun k => dl 1 k * (derho - dep / (a.c * a.c)) + l 1 * (dderho k - (ddep k * a.c * a.c
        - dep * 2 * a.c * d.dc k) / c4),
    fun k => dl 1 k * a.rho + l 1 * d.drho k,
    fun k => ((dl 3 k * (dep + a.rho * a.c * devn) + l 3 * (ddep k + d.drho k * a.c * devn
        + a.rho * d.dc k * devn + a.rho * a.c * ddevn k)) * 2 * a.c * a.c
        - l 3 * (dep + a.rho * a.c * devn) * 4 * a.c * d.dc k) / (4 * c4)]

/-- src/spatial/anumericalflux.cpp:866-946. -/
noncomputable def roeDADU (a : Avg) (d : DAvg) (la : St) (dla : Fin 4 → St) (n dv : V2) (devn : ℝ)
    (ddvx ddvy ddevn : St) : Fin 4 → St :=
  ![fun k => dla 0 k + dla 1 k + dla 3 k,
    fun k => dla 0 k * (a.v 0 - a.c * n 0) + la 0 * (d.dvx k - d.dc k * n 0)
      + (dla 1 k * a.v 0 + la 1 * d.dvx k + dla 2 k * (dv 0 - devn * n 0)
        + la 2 * (ddvx k - ddevn k * n 0))
      + (dla 3 k * (a.v 0 + a.c * n 0) + la 3 * (d.dvx k + d.dc k * n 0)),
    fun k => dla 0 k * (a.v 1 - a.c * n 1) + la 0 * (d.dvy k - d.dc k * n 1)
      + (dla 1 k * a.v 1 + la 1 * d.dvy k + dla 2 k * (dv 1 - devn * n 1)
        + la 2 * (ddvy k - ddevn k * n 1))
      + (dla 3 k * (a.v 1 + a.c * n 1) + la 3 * (d.dvy k + d.dc k * n 1)),
    fun k => dla 0 k * (a.H - a.c * a.vn) + la 0 * (d.dH k - d.dc k * a.vn - a.c * d.dvn k)
      + (dla 1 k * a.vm2 / 2 + la 1 * d.dvm2 k / 2
        + dla 2 k * (a.v 0 * dv 0 + a.v 1 * dv 1 - a.vn * devn)
        + la 2 * (d.dvx k * dv 0 + a.v 0 * ddvx k + d.dvy k * dv 1 + a.v 1 * ddvy k
          - d.dvn k * devn - a.vn * ddevn k))
      + (dla 3 k * (a.H + a.c * a.vn) + la 3 * (d.dH k + d.dc k * a.vn + a.c * d.dvn k))]

/-- `RoeFlux::get_jacobian`, src/spatial/anumericalflux.cpp:737-965. -/
noncomputable def roeJac (G : Gas) (ul ur : St) (n : V2) : FJ :=
  let vi := Gas.vel ul
  let vj := Gas.vel ur
  let devn := Gas.varsVn ur n - Gas.varsVn ul n
  let dep := G.varsP ur - G.varsP ul
  let derho := ur 0 - ul 0
  let a := roeOf G ul ur n
  let di := dRoeI G.g ul ur n vi (G.varsH ul) vj (G.varsH ur) (G.dVarsH ul)
  let dj := dRoeJ G.g ul ur n vi (G.varsH ul) vj (G.varsH ur) (G.dVarsH ur)
  let la := roeLA a (roeL a) dep devn derho
  let dv : V2 := ![vj 0 - vi 0, vj 1 - vi 1]
  let dlai := roeDLA a di (roeL a) (roeDL a di) dep devn derho (fun k => -G.dPressure ul k)
    (fun k => -Gas.dVarsVn ul n k) ![-1, 0, 0, 0]
  let dlaj := roeDLA a dj (roeL a) (roeDL a dj) dep devn derho (G.dPressure ur)
    (Gas.dVarsVn ur n) ![1, 0, 0, 0]
  let dadui := roeDADU a di la dlai n dv devn (fun k => -Gas.dVelRow ul 0 k)
    (fun k => -Gas.dVelRow ul 1 k) (fun k => -Gas.dVarsVn ul n k)
  let daduj := roeDADU a dj la dlaj n dv devn (Gas.dVelRow ur 0) (Gas.dVelRow ur 1)
    (Gas.dVarsVn ur n)
  ⟨fun i k => -(1 / 2) * (G.dEulerFlux ul n i k - dadui i k),
   fun i k => 1 / 2 * (G.dEulerFlux ur n i k - daduj i k)⟩

/-! ### HLL -/

/-- Einfeldt estimates, src/spatial/anumericalflux.cpp:990-996. -/
noncomputable def waveL (vni ci : ℝ) (a : Avg) : ℝ :=
  if vni - ci > a.vn - a.c then a.vn - a.c else vni - ci
/-- src/spatial/anumericalflux.cpp:993-996. -/
noncomputable def waveR (vnj cj : ℝ) (a : Avg) : ℝ :=
  if vnj + cj < a.vn + a.c then a.vn + a.c else vnj + cj

/-- Signal speeds of two states. -/
noncomputable def slOf (G : Gas) (ul ur : St) (n : V2) : ℝ :=
  waveL (Gas.varsVn ul n) (cSide G ul) (roeOf G ul ur n)
/-- Signal speeds of two states. -/
noncomputable def srOf (G : Gas) (ul ur : St) (n : V2) : ℝ :=
  waveR (Gas.varsVn ur n) (cSide G ur) (roeOf G ul ur n)

/-- src/spatial/anumericalflux.cpp:997-1001. -/
noncomputable def hllT1 (sl sr : ℝ) : ℝ :=
  ((if sr > 0 then 0 else sr) - (if sl > 0 then 0 else sl)) / (sr - sl)
/-- src/spatial/anumericalflux.cpp:1002. -/
noncomputable def hllT3 (sl sr : ℝ) : ℝ := 1 / 2 * (sr * |sl| - sl * |sr|) / (sr - sl)

/-- src/spatial/anumericalflux.cpp:1003-1006. -/
noncomputable def hllCore (ul ur : St) (n : V2) (vni vnj pi pj Hi Hj t1 t2 t3 : ℝ) : St :=
  ![t1 * vnj * ur 0 + t2 * vni * ul 0 - t3 * (ur 0 - ul 0),
    t1 * (vnj * ur 1 + pj * n 0) + t2 * (vni * ul 1 + pi * n 0) - t3 * (ur 1 - ul 1),
    t1 * (vnj * ur 2 + pj * n 1) + t2 * (vni * ul 2 + pi * n 1) - t3 * (ur 2 - ul 2),
    t1 * (vnj * ur 0 * Hj) + t2 * (vni * ul 0 * Hi) - t3 * (ur 3 - ul 3)]

/-- `HLLFlux::get_flux`, src/spatial/anumericalflux.cpp:974-1007. -/
noncomputable def hll (G : Gas) (ul ur : St) (n : V2) : St :=
  let sl := slOf G ul ur n
  let sr := srOf G ul ur n
  hllCore ul ur n (Gas.varsVn ul n) (Gas.varsVn ur n) (G.varsP ul) (G.varsP ur) (G.varsH ul)
    (G.varsH ur) (hllT1 sl sr) (1 - hllT1 sl sr) (hllT3 sl sr)

/-- `HLLFlux::get_jacobian`, src/spatial/anumericalflux.cpp:1013-1061. -/
noncomputable def hllJac (G : Gas) (ul ur : St) (n : V2) : FJ :=
  let sl := slOf G ul ur n
  let sr := srOf G ul ur n
  let t1 := hllT1 sl sr
  let t2 := 1 - t1
  let t3 := hllT3 sl sr
  ⟨fun i j => -t2 * G.dEulerFlux ul n i j - (if i = j then t3 else 0),
   fun i j => t1 * G.dEulerFlux ur n i j - (if i = j then t3 else 0)⟩

/-! ### HLLC -/

/-- Contact speed, src/spatial/anumericalflux.cpp:1199-1200. -/
noncomputable def contact (rl rr vni vnj pi pj sl sr : ℝ) : ℝ :=
  (rr * vnj * (sr - vnj) - rl * vni * (sl - vni) + pi - pj) / (rr * (sr - vnj) - rl * (sl - vni))

/-- Contact speed of two states. -/
noncomputable def smOf (G : Gas) (ul ur : St) (n : V2) : ℝ :=
  contact (ul 0) (ur 0) (Gas.varsVn ul n) (Gas.varsVn ur n) (G.varsP ul) (G.varsP ur)
    (slOf G ul ur n) (srOf G ul ur n)

/-- `HLLCFlux::getStarState`, src/spatial/anumericalflux.cpp:1071-1081. -/
noncomputable def star (u : St) (n : V2) (vn p ss sm : ℝ) : St :=
  let ps := u 0 * (vn - ss) * (vn - sm) + p
  ![u 0 * (ss - vn) / (ss - sm), ((ss - vn) * u 1 + (ps - p) * n 0) / (ss - sm),
    ((ss - vn) * u 2 + (ps - p) * n 1) / (ss - sm), ((ss - vn) * u 3 - p * vn + ps * sm) / (ss - sm)]

/-- Branches of `HLLCFlux::get_flux`, src/spatial/anumericalflux.cpp:1202-1228. -/
noncomputable def hllcCore (ul ur : St) (n : V2) (vni vnj pi pj sl sm sr : ℝ) : St :=
  if sl > 0 then Gas.dirFlux ul n vni pi
  else if sl ≤ 0 ∧ sm > 0 then
    fun i => Gas.dirFlux ul n vni pi i + sl * (star ul n vni pi sl sm i - ul i)
  else if sm ≤ 0 ∧ sr ≥ 0 then
    fun i => Gas.dirFlux ur n vnj pj i + sr * (star ur n vnj pj sr sm i - ur i)
  else Gas.dirFlux ur n vnj pj

/-- `HLLCFlux::get_flux`, src/spatial/anumericalflux.cpp:1176-1228. -/
noncomputable def hllc (G : Gas) (ul ur : St) (n : V2) : St :=
  hllcCore ul ur n (Gas.varsVn ul n) (Gas.varsVn ur n) (G.varsP ul) (G.varsP ur)
    (slOf G ul ur n) (smOf G ul ur n) (srOf G ul ur n)

/-- Derivative of the star pressure with respect to the state on its own side,
src/spatial/anumericalflux.cpp:1098-1105. -/
noncomputable def dPsI (u : St) (vn ss sm : ℝ) (dvn dp dss dsm : St) : St := fun k =>
  if k = 0 then (vn - ss) * (vn - sm) + u 0 * (dvn 0 - dss 0) * (vn - sm)
    + u 0 * (vn - ss) * (dvn 0 - dsm 0) + dp 0
  else u 0 * ((dvn k - dss k) * (vn - sm) + (vn - ss) * (dvn k - dsm k)) + dp k

/-- Derivative of the star pressure with respect to the other side's state,
src/spatial/anumericalflux.cpp:1100-1106. -/
noncomputable def dPsJ (u : St) (vn ss sm : ℝ) (dss dsm : St) : St := fun k =>
  u 0 * ((-dss k) * (vn - sm) + (vn - ss) * (-dsm k))

/-- `HLLCFlux::getStarStateAndJacobian`, own-side block `dustri`,
src/spatial/anumericalflux.cpp:1085-1171. -/
noncomputable def dStarI (u : St) (n : V2) (vn p ss sm : ℝ) (dvn dp dss dsm : St) : Fin 4 → St :=
  let ps := u 0 * (vn - ss) * (vn - sm) + p
  let dps := dPsI u vn ss sm dvn dp dss dsm
  let q := (ss - sm) * (ss - sm)
  ![fun k => if k = 0 then u 0 * ((dss 0 - dvn 0) * (ss - sm) - (ss - vn) * (dss 0 - dsm 0)) / q
        + (ss - vn) / (ss - sm)
      else u 0 * ((dss k - dvn k) * (ss - sm) - (ss - vn) * (dss k - dsm k)) / q,
    fun k => if k = 1 then (((dss 1 - dvn 1) * u 1 + (ss - vn) + (dps 1 - dp 1) * n 0) * (ss - sm)
        - ((ss - vn) * u 1 + (ps - p) * n 0) * (dss 1 - dsm 1)) / q
      else (((dss k - dvn k) * u 1 + (dps k - dp k) * n 0) * (ss - sm)
        - ((ss - vn) * u 1 + (ps - p) * n 0) * (dss k - dsm k)) / q,
    fun k => if k = 2 then (((dss 2 - dvn 2) * u 2 + (ss - vn) + (dps 2 - dp 2) * n 1) * (ss - sm)
        - ((ss - vn) * u 2 + (ps - p) * n 1) * (dss 2 - dsm 2)) / q
      else (((dss k - dvn k) * u 2 + (dps k - dp k) * n 1) * (ss - sm)
        - ((ss - vn) * u 2 + (ps - p) * n 1) * (dss k - dsm k)) / q,
    fun k => if k = 3 then (((dss 3 - dvn 3) * u 3 + (ss - vn) - dp 3 * vn - p * dvn 3
        + dps 3 * sm + ps * dsm 3) * (ss - sm)
        - ((ss - vn) * u 3 - p * vn + ps * sm) * (dss 3 - dsm 3)) / q
      else (((dss k - dvn k) * u 3 - dp k * vn - p * dvn k + dps k * sm + ps * dsm k) * (ss - sm)
        - ((ss - vn) * u 3 - p * vn + ps * sm) * (dss k - dsm k)) / q]

/-- `HLLCFlux::getStarStateAndJacobian`, other-side block `dustrj`,
src/spatial/anumericalflux.cpp:1085-1171. -/
noncomputable def dStarJ (u : St) (n : V2) (vn p ss sm : ℝ) (dss dsm : St) : Fin 4 → St :=
  let ps := u 0 * (vn - ss) * (vn - sm) + p
  let dps := dPsJ u vn ss sm dss dsm
  let q := (ss - sm) * (ss - sm)
  ![fun k => u 0 * (dss k * (ss - sm) - (ss - vn) * (dss k - dsm k)) / q,
    fun k => ((dss k * u 1 + dps k * n 0) * (ss - sm)
        - ((ss - vn) * u 1 + (ps - p) * n 0) * (dss k - dsm k)) / q,
    fun k => ((dss k * u 2 + dps k * n 1) * (ss - sm)
        - ((ss - vn) * u 2 + (ps - p) * n 1) * (dss k - dsm k)) / q,
    fun k => ((dss k * u 3 + dps k * sm + ps * dsm k) * (ss - sm)
        - ((ss - vn) * u 3 - p * vn + ps * sm) * (dss k - dsm k)) / q]

/-- `dsmi`, src/spatial/anumericalflux.cpp:1315-1331. -/
noncomputable def dSmI (rl rr vni vnj pi pj sl sr : ℝ) (dsl dsr dvni dpi : St) : St :=
  let num := rr * vnj * (sr - vnj) - rl * vni * (sl - vni) + pi - pj
  let den := rr * (sr - vnj) - rl * (sl - vni)
  fun k => if k = 0 then
      ((rr * vnj * dsr 0 - vni * (sl - vni) - rl * dvni 0 * (sl - vni) - rl * vni * (dsl 0 - dvni 0)
        + dpi 0) * den - num * (rr * dsr 0 - (sl - vni) - rl * (dsl 0 - dvni 0))) / (den * den)
    else
      ((rr * vnj * dsr k - rl * (dvni k * (sl - vni) + vni * (dsl k - dvni k)) + dpi k) * den
        - num * (rr * dsr k - rl * (dsl k - dvni k))) / (den * den)

/-- `dsmj`, src/spatial/anumericalflux.cpp:1319-1332. -/
noncomputable def dSmJ (rl rr vni vnj pi pj sl sr : ℝ) (dsl dsr dvnj dpj : St) : St :=
  let num := rr * vnj * (sr - vnj) - rl * vni * (sl - vni) + pi - pj
  let den := rr * (sr - vnj) - rl * (sl - vni)
  fun k => if k = 0 then
      ((vnj * (sr - vnj) + rr * dvnj 0 * (sr - vnj) + rr * vnj * (dsr 0 - dvnj 0) - rl * vni * dsl 0
        - dpj 0) * den - num * ((sr - vnj) + rr * (dsr 0 - dvnj 0) - rl * dsl 0)) / (den * den)
    else
      ((rr * (dvnj k * (sr - vnj) + vnj * (dsr k - dvnj k)) - rl * vni * dsl k - dpj k) * den
        - num * (rr * (dsr k - dvnj k) - rl * dsl k)) / (den * den)

/-- `HLLCFlux::get_jacobian`, src/spatial/anumericalflux.cpp:1231-1397. -/
noncomputable def hllcJac (G : Gas) (ul ur : St) (n : V2) : FJ :=
  let vi := Gas.vel ul
  let vj := Gas.vel ur
  let vni := Gas.varsVn ul n
  let vnj := Gas.varsVn ur n
  let pi := G.varsP ul
  let pj := G.varsP ur
  let ci := cSide G ul
  let cj := cSide G ur
  let a := roeOf G ul ur n
  let di := dRoeI G.g ul ur n vi (G.varsH ul) vj (G.varsH ur) (G.dVarsH ul)
  let dj := dRoeJ G.g ul ur n vi (G.varsH ul) vj (G.varsH ur) (G.dVarsH ur)
  let dpi := G.dPressure ul
  let dpj := G.dPressure ur
  let dvni := Gas.dVarsVn ul n
  let dvnj := Gas.dVarsVn ur n
  let dci := G.dSoundSpeed (ul 0) pi dpi ci
  let dcj := G.dSoundSpeed (ur 0) pj dpj cj
  let sl := slOf G ul ur n
  let sr := srOf G ul ur n
  let roeL := vni - ci > a.vn - a.c
  let dsli : St := fun k => if roeL then di.dvn k - di.dc k else dvni k - dci k
  let dslj : St := fun k => if roeL then dj.dvn k - dj.dc k else 0
  let roeR := vnj + cj < a.vn + a.c
  let dsri : St := fun k => if roeR then di.dvn k + di.dc k else 0
  let dsrj : St := fun k => if roeR then dj.dvn k + dj.dc k else dvnj k + dcj k
  let sm := smOf G ul ur n
  let dsmi := dSmI (ul 0) (ur 0) vni vnj pi pj sl sr dsli dsri dvni dpi
  let dsmj := dSmJ (ul 0) (ur 0) vni vnj pi pj sl sr dslj dsrj dvnj dpj
  let neg (m : Fin 4 → St) : Fin 4 → St := fun i k => m i k * (-1)
  if sl > 0 then ⟨neg (G.dEulerFlux ul n), fun _ _ => 0⟩
  else if sl ≤ 0 ∧ sm > 0 then
    ⟨neg fun i k => G.dEulerFlux ul n i k + (dsli k * (star ul n vni pi sl sm i - ul i)
        + sl * (dStarI ul n vni pi sl sm dvni dpi dsli dsmi i k - delta i k)),
     fun i k => 0 + (dslj k * (star ul n vni pi sl sm i - ul i)
        + sl * dStarJ ul n vni pi sl sm dslj dsmj i k)⟩
  else if sm ≤ 0 ∧ sr ≥ 0 then
    ⟨neg fun i k => 0 + (dsri k * (star ur n vnj pj sr sm i - ur i)
        + sr * dStarJ ur n vnj pj sr sm dsri dsmi i k),
     fun i k => G.dEulerFlux ur n i k + (dsrj k * (star ur n vnj pj sr sm i - ur i)
        + sr * (dStarI ur n vnj pj sr sm dvnj dpj dsrj dsmj i k - delta i k))⟩
  else ⟨neg fun _ _ => 0, G.dEulerFlux ur n⟩

/-- The seven schemes by name, src/utilities/afactory.cpp:32-90. -/
inductive Scheme
  | llf | vanLeer | ausm | ausmPlus | roe | hll | hllc
  deriving DecidableEq, Repr

/-- Virtual call `get_flux`. -/
noncomputable def Scheme.flux (G : Gas) : Scheme → St → St → V2 → St
  | .llf => Flux.llf G
  | .vanLeer => Flux.vanLeer G
  | .ausm => Flux.ausm G
  | .ausmPlus => Flux.ausmPlus G
  | .roe => Flux.roe G
  | .hll => Flux.hll G
  | .hllc => Flux.hllc G

end Flux
end FVENS
