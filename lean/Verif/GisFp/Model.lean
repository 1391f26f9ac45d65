import Verif.FunctionsFp.Model
import Verif.Ieee.Sqrt

/-!
Model of geometry/src/gis.cpp in floating point arithmetic: `Scalar` is `float` (types.h:39), the literals and `M_PI` are of type `double`. Every operation is rounded
separately. The functions `cos` and `sin` of the C library are parameters, `sqrt` is correctly rounded.
-/
namespace Verif.GisFp
open Ieee Fp Float.Model FunctionsFp

/-- The trigonometric functions of the C library, for `double` and for `float`, gis.cpp:26-29. The unqualified names called with a `float` (gis.cpp:26-29, 42) are the global
functions of `double` (`dbl`), or also those of `float` if some header brings in the overloads of `std`. -/
structure Trig where
  dbl : Bool
  cos : Dbl → Dbl
  sin : Dbl → Dbl
  cosf : Flt → Flt
  sinf : Flt → Flt

/-- ROFL_WGS84_SEMI_AXIS_A, gis.h:31. -/
def semiAxisA : Flt := narrow (d 63781370 1)
/-- ROFL_WGS84_AXIS_RATIO, gis.h:35. -/
def axisRatio : Flt := narrow (d 996647189335 12)
/-- ROFL_WGS84_ECCENTRICITY_2, gis.h:39. -/
def eccentricity2 : Flt := narrow (d 669437999014 14)

/-- The conversion to radians, gis.cpp:24-25, 34, 41: a computation in `double` stored in a `float`. -/
def rad (deg : Flt) : Flt := narrow (wide deg / d 1800 1 * mPi)

/-- The radius `Nphi`, gis.cpp:26. -/
def radius (T : Trig) (latRad : Flt) : Flt :=
  let e := if T.dbl then wide eccentricity2 * T.sin (wide latRad) * T.sin (wide latRad) else wide (eccentricity2 * T.sinf latRad * T.sinf latRad)
  narrow (wide semiAxisA / Fp.sqrt (d 10 1 - e))

/-- `convertLatLonAltToECEF`, gis.cpp:23-30: `x`, `y` and `z`. -/
def latLonAltToECEF (T : Trig) (lat lon alt : Flt) : Flt × Flt × Flt :=
  let latRad := rad lat
  let lonRad := rad lon
  let Nphi := radius T latRad
  let h := axisRatio * axisRatio * Nphi + alt
  if T.dbl then
    (narrow (wide (Nphi + alt) * T.cos (wide latRad) * T.cos (wide lonRad)), narrow (wide (Nphi + alt) * T.cos (wide latRad) * T.sin (wide lonRad)),
      narrow (wide h * T.sin (wide latRad)))
  else ((Nphi + alt) * T.cosf latRad * T.cosf lonRad, (Nphi + alt) * T.cosf latRad * T.sinf lonRad, h * T.sinf latRad)

/-- `meterPerDegLat`, gis.cpp:32-37. -/
def meterPerDegLat (T : Trig) (lat : Flt) : Flt :=
  let latRad := wide (rad lat)
  narrow (d 11113209 2 - d 56605 2 * T.cos (d 20 1 * latRad) + d 120 2 * T.cos (d 40 1 * latRad) - d 2 3 * T.cos (d 60 1 * latRad))

/-- `meterPerDegLon`, gis.cpp:39-44. -/
def meterPerDegLon (T : Trig) (lon : Flt) : Flt :=
  let lonRad := rad lon
  let c := if T.dbl then T.cos (wide lonRad) else wide (T.cosf lonRad)
  narrow (d 11141513 2 * c - d 9455 2 * T.cos (d 30 1 * wide lonRad) + d 12 2 * T.cos (d 50 1 * wide lonRad))

/-- `convertLatLonToLocalXY`, gis.cpp:46-49: `x` and `y`. -/
def latLonToLocalXY (T : Trig) (latOrg lonOrg lat lon : Flt) : Flt × Flt :=
  ((lon - lonOrg) * meterPerDegLon T lonOrg, (lat - latOrg) * meterPerDegLat T latOrg)

/-- `convertLocalXYToLatLon`, gis.cpp:51-54: `lat` and `lon`. -/
def localXYToLatLon (T : Trig) (latOrg lonOrg x y : Flt) : Flt × Flt :=
  let lon := x / meterPerDegLon T lonOrg + lonOrg
  let lat := y / meterPerDegLat T latOrg + latOrg
  (lat, lon)

end Verif.GisFp
