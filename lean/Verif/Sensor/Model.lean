import Verif.AMap
import Verif.Trace

/-!
# The sensor manager

`src/cpp/Services/SensorManagerService.cpp`: which footprints answer a request, and which camera, gimbal, field of view
and elevation each footprint is for.  Simplifications:

* Numbers are rational and not rounded; `AchievedGSD` is a `float` in the code, so a comparison with it may differ from
  one with the number it was set to.
* The sine and the size of a degree in radians are parameters.
* `abs` is the absolute value of a number (with `<cstdlib>` alone it would be that of its integer part).
* `CalculateSensorFootprint` is in `Verif.Sensor.Ground`.
-/

namespace Verif.Sensor

open Verif

/-- For SensorManagerService.cpp: `n_Const::c_Convert::dDegreesToRadians()` (Convert.h) and `sin`. -/
structure Trig where
  deg : Rat
  sin : Rat → Rat

/-- mdms/CMASI.xml 914-992: `GimbalConfiguration` (fields used by the service), angles in degrees. -/
structure Gimbal where
  id : Int
  minEl : Rat
  maxEl : Rat
  clamped : Bool
  contained : List Int
deriving DecidableEq, Repr

/-- mdms/CMASI.xml 231-236, 826-836: the mode and its fields of view, in degrees; `unknown` is a number that is none of
the modes. -/
inductive Fov where
  | discrete (l : List Rat)
  | continuous (lo hi : Rat)
  | unknown
deriving DecidableEq, Repr

/-- mdms/CMASI.xml 818-842: `CameraConfiguration`; the wavelength band is its number, 0 is `AllAny`. -/
structure Camera where
  id : Int
  band : Nat
  fov : Fov
  hres : Nat
  vres : Nat
deriving DecidableEq, Repr

/-- mdms/CMASI.xml 406-416: `PayloadConfiguration`. -/
inductive Payload where
  | gimbal (g : Gimbal)
  | camera (c : Camera)
  | other (id : Int)
deriving DecidableEq, Repr

/-- mdms/CMASI.xml 534-570: `EntityConfiguration`. -/
structure Config where
  id : Int
  nominalAlt : Rat
  payloads : List Payload
deriving DecidableEq, Repr

/-- SensorManagerService.cpp 314-321: what a footprint is set to; the elevation is in radians here, in degrees there. -/
structure Choice where
  gimbal : Int
  camera : Int
  band : Nat
  fov : Rat
  elevation : Rat
  alt : Rat
  aspect : Rat
  gsd : Rat
deriving DecidableEq, Repr

/-- SensorManagerService.cpp 260-262, 291-293: `for (x = lo; x <= hi; x += step)` for a positive step. -/
def steps (lo hi step : Rat) : List Rat :=
  if hi < lo then [] else (List.range (((hi - lo) / step).floor.toNat + 1)).map fun (i : Nat) => lo + i * step

/-- SensorManagerService.cpp 240-251: the lowest and the highest elevation of a gimbal, in radians. -/
def Gimbal.limits (t : Trig) (g : Gimbal) : Rat × Rat :=
  let pi := 180 * t.deg
  let lo := g.minEl * t.deg
  let lo := if lo < -pi then -(pi - t.deg) else lo
  let hi := g.maxEl * t.deg
  let hi := if 0 < hi then -t.deg else hi
  let hi := if hi < lo then lo else hi
  if g.clamped then (lo, hi) else (-(pi - t.deg), -t.deg)

/-- SensorManagerService.cpp 252-257: the range for an elevation asked for, which is taken to be in radians. -/
def Gimbal.range (t : Trig) (g : Gimbal) (elev : Rat) : Rat × Rat :=
  let r := g.limits t
  if elev < 1 / 1000 then
    let lo := if elev ≤ r.1 then r.1 else elev
    (lo, lo)
  else r

/-- SensorManagerService.cpp 284-301: the fields of view that are tried. -/
def Camera.fovs (c : Camera) : List Rat :=
  match c.fov with
  | .discrete l => l
  | .continuous lo hi => steps lo hi 5
  | .unknown => []

/-- SensorManagerService.cpp 264-265: the slant range. -/
def slant (t : Trig) (alt el : Rat) : Rat :=
  let d := t.sin (-el)
  if -(1 / 1000000000) ≤ d ∧ d ≤ 1 / 1000000000 then alt else alt / d

/-- SensorManagerService.cpp 280-282, 305-307: the ground sample distance. -/
def gsd (t : Trig) (alt el : Rat) (c : Camera) (fov : Rat) : Rat :=
  let n : Nat := min c.hres c.vres
  let alpha := if n = 0 then 90 * t.deg else fov * t.deg / (n : Rat)
  slant t alt el * t.sin alpha

/-- SensorManagerService.cpp 278-279: the aspect ratio. -/
def Camera.aspect (c : Camera) : Rat := if c.vres = 0 then 1 else (c.hres : Rat) / (c.vres : Rat)

/-- SensorManagerService.cpp 305-321: one candidate. -/
def candidate (t : Trig) (alt : Rat) (g : Gimbal) (el : Rat) (c : Camera) (fov : Rat) : Choice :=
  { gimbal := g.id, camera := c.id, band := c.band, fov := fov, elevation := el, alt := alt
    aspect := c.aspect, gsd := gsd t alt el c fov }

/-- SensorManagerService.cpp 269-329: the candidates of a camera number on a gimbal. -/
def camerasOf (t : Trig) (ps : List Payload) (band : Nat) (alt : Rat) (g : Gimbal) (el : Rat) (sid : Int) :
    List Choice :=
  ps.flatMap fun
    | .camera c => if c.id = sid ∧ (c.band = band ∨ band = 0) then c.fovs.map (candidate t alt g el c) else []
    | _ => []

/-- SensorManagerService.cpp 231-338: the candidates in the order in which they are tried. -/
def candidates (t : Trig) (ps : List Payload) (band : Nat) (alt elev : Rat) : List Choice :=
  ps.flatMap fun
    | .gimbal g =>
      let r := g.range t elev
      if r.1 < 0 then
        (steps r.1 r.2 (5 * t.deg)).flatMap fun el => g.contained.flatMap fun sid => camerasOf t ps band alt g el sid
      else []
    | _ => []

/-- For SensorManagerService.cpp 308-310: the absolute value of a difference. -/
def dist (a b : Rat) : Rat := if a ≤ b then b - a else a - b

/-- SensorManagerService.cpp 308-324: a candidate replaces the one so far if it is strictly closer. -/
def better (want : Rat) (best : Option Choice) (c : Choice) : Option Choice :=
  match best with
  | none => some c
  | some b => if dist want c.gsd < dist want b.gsd then some c else some b

/-- SensorManagerService.cpp 215-219: the altitude. -/
def altitude (conf : Config) (agl : Rat) : Rat := if agl < 1 / 1000 then conf.nominalAlt else agl

/-- SensorManagerService.cpp 220-224: the distance wanted. -/
def wanted (g : Rat) : Rat := if g < 1 / 1000 then 1000 else g

/-- SensorManagerService.cpp 210-340: `FindSensorFootPrint`; `none` leaves the footprint as it was made. -/
def find (t : Trig) (conf : Config) (band : Nat) (g agl elev : Rat) : Option Choice :=
  let alt := altitude conf agl
  if 10 ≤ alt then (candidates t conf.payloads band alt elev).foldl (better (wanted g)) none else none

/-! ### The service -/

/-- mdms/UXTASK.xml 159-178: `FootprintRequest`. -/
structure FootReq where
  id : Int
  vehicle : Int
  bands : List Nat := []
  gsds : List Rat := []
  agls : List Rat := []
  elevs : List Rat := []
deriving DecidableEq, Repr

/-- mdms/UXTASK.xml 181-220: `SensorFootprint`. -/
structure Footprint where
  id : Int
  vehicle : Int
  choice : Option Choice
deriving DecidableEq, Repr

/-- mdms/UXTASK.xml 224-229: `SensorFootprintResponse`. -/
structure Response where
  id : Int
  footprints : List Footprint
deriving DecidableEq, Repr

/-- SensorManagerService.cpp 108-117: the messages the service acts on. -/
inductive In where
  | config (c : Config)
  | requests (id : Int) (rs : List FootReq)
  | other
deriving DecidableEq, Repr

/-- SensorManagerService.cpp 141-183: a list that is empty is replaced by one with the default. -/
def orDefault (d : α) (l : List α) : List α := if l.isEmpty then [d] else l

/-- SensorManagerService.cpp 141-203: the footprints for one request, of a vehicle with a configuration. -/
def footprints (t : Trig) (conf : Config) (r : FootReq) : List Footprint :=
  (orDefault 0 r.bands).flatMap fun b => (orDefault 0 r.gsds).flatMap fun g => (orDefault 0 r.agls).flatMap fun a =>
    (orDefault 0 r.elevs).map fun e => { id := r.id, vehicle := conf.id, choice := find t conf b g a e }

/-- SensorManagerService.cpp 131-208: `ProcessSensorFootprintRequests`. -/
def answer (t : Trig) (known : Int → Option Config) (id : Int) (rs : List FootReq) : Response :=
  { id := id
    footprints := rs.flatMap fun r => match known r.vehicle with
      | some c => footprints t c r
      | none => [] }

/-- SensorManagerService.cpp 103-129: `processReceivedLmcpMessage`; `insert` leaves an entry of the table as it is. -/
def step (t : Trig) (s : Map Config) : In → Map Config × Option Response
  | .config c => (if (s.get c.id).isSome then s else s.put c.id c, none)
  | .requests id rs => (s, some (answer t s.get id rs))
  | .other => (s, none)

end Verif.Sensor
