import Verif.Functions.Model

/-! Model of /repo/geometry/src/gis.cpp and of the constants of /repo/geometry/include/rofl/geometry/gis.h.

The arithmetic is exact (a field, and the functions of `<cmath>` as parameters) instead of `float` and `double`; the WGS84 constants keep
the values they have as `float`. A division by zero, which gives an infinity or NaN in the code, gives `none`. -/
namespace Verif.Gis
open Verif Functions

variable {K : Type} [Field K] [DecidableEq K]

/-- ROFL_WGS84_SEMI_AXIS_A, gis.h:31. -/
def semiAxisA : K := 6378137
/-- ROFL_WGS84_SEMI_AXIS_B, gis.h:33: the float nearest to 6356752.3142. -/
def semiAxisB : K := 12713505 / 2
/-- ROFL_WGS84_AXIS_RATIO, gis.h:35: the float nearest to 0.996647189335. -/
def axisRatio : K := 16720965 / 16777216
/-- ROFL_WGS84_ECCENTRICITY, gis.h:37: the float nearest to 0.082094437949696. -/
def eccentricity : K := 11018529 / 134217728
/-- ROFL_WGS84_ECCENTRICITY_2, gis.h:39: the float nearest to 0.00669437999014. -/
def eccentricity2 : K := 1797009 / 268435456

/-- `convertLatLonAltToECEF`, gis.cpp:23-30. -/
def latLonAltToECEF (L : Libm K) (lat lon alt : K) : K × K × K :=
  let latRad := lat / 180 * L.pi
  let lonRad := lon / 180 * L.pi
  let Nphi := semiAxisA / L.sqrt (1 - eccentricity2 * L.sin latRad * L.sin latRad)
  ((Nphi + alt) * L.cos latRad * L.cos lonRad, (Nphi + alt) * L.cos latRad * L.sin lonRad,
    (axisRatio * axisRatio * Nphi + alt) * L.sin latRad)

/-- `meterPerDegLat`, gis.cpp:32-37. -/
def meterPerDegLat (L : Libm K) (lat : K) : K :=
  let latRad := lat / 180 * L.pi
  11113209 / 100 - 56605 / 100 * L.cos (2 * latRad) + 120 / 100 * L.cos (4 * latRad) - 2 / 1000 * L.cos (6 * latRad)

/-- `meterPerDegLon`, gis.cpp:39-44. -/
def meterPerDegLon (L : Libm K) (lon : K) : K :=
  let lonRad := lon / 180 * L.pi
  11141513 / 100 * L.cos lonRad - 9455 / 100 * L.cos (3 * lonRad) + 12 / 100 * L.cos (5 * lonRad)

/-- `convertLatLonToLocalXY`, gis.cpp:46-49: `x` and `y`. -/
def latLonToLocalXY (L : Libm K) (latOrg lonOrg lat lon : K) : K × K :=
  ((lon - lonOrg) * meterPerDegLon L lonOrg, (lat - latOrg) * meterPerDegLat L latOrg)

/-- A division of the code, `none` for an infinity or NaN, gis.cpp:26, 52-53. -/
def fdiv (a b : K) : Option K := if b = 0 then none else some (a / b)

/-- `convertLocalXYToLatLon`, gis.cpp:51-54: `lat` and `lon`. -/
def localXYToLatLon (L : Libm K) (latOrg lonOrg x y : K) : Option K × Option K :=
  let lon := (fdiv x (meterPerDegLon L lonOrg)).map (· + lonOrg)
  let lat := (fdiv y (meterPerDegLat L latOrg)).map (· + latOrg)
  (lat, lon)

end Verif.Gis
