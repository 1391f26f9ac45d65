import Verif.Box.Model
import Verif.Ieee.Fp
import Verif.Ieee.Cast

/-! Model of `BoxRegistration::associate`, /repo/geometry/include/rofl/geometry/box_registration.h:108-150, in floating point arithmetic: `BoxRegistration2f` and `3f`
(`Fp .binary32`), `BoxRegistration2d` and `3d` (`Fp .binary64`). The literals 0.5 and 0.0 are of type `double`, so the comparisons and the products are made in `double`; the
differences are made in `Scalar`. -/
namespace Verif.Box
open Verif Ieee Ieee.Fp Float.Model

variable {spec : Format} [Fmt spec]

/-- The promotion to `double`, box_registration.h:121, 124, 129. -/
def wide (x : Fp spec) : Dbl := conv x

/-- `+0.5 * dimensions_(d)`, box_registration.h:124-125, 133. -/
def half (dim : Fp spec) : Dbl := lit .binary64 5 (-1) * wide dim

/-- `-0.5 * dimensions_(d)`, box_registration.h:121-122, 130. -/
def negHalf (dim : Fp spec) : Dbl := -lit .binary64 5 (-1) * wide dim

/-- box_registration.h:129-135: the nearer edge and the distance from it. -/
def edgeDistF (dim q : Fp spec) : Fp spec × Fp spec :=
  if wide q < 0 then (conv (negHalf dim), q - conv (negHalf dim)) else (conv (half dim), conv (half dim) - q)

/-- box_registration.h:137: `dimNearest < 0 || dist < distNearest`. -/
def betterF (dist : Fp spec) : Option (Nat × Fp spec × Fp spec) → Bool
  | none => true
  | some (_, _, dn) => decide (dist < dn)

/-- The iteration `d`, box_registration.h:119-143. -/
def stepF (dims query : Nat → Fp spec) (s : State (Fp spec)) (d : Nat) : State (Fp spec) :=
  if wide (query d) < negHalf (dims d) then ⟨upd s.nearest d (conv (negHalf (dims d))), false, s.best⟩
  else if wide (query d) > half (dims d) then ⟨upd s.nearest d (conv (half (dims d))), false, s.best⟩
  else
    let ed := edgeDistF (dims d) (query d)
    ⟨upd s.nearest d (query d), s.inside, if betterF ed.2 s.best then some (d, ed.1, ed.2) else s.best⟩

/-- `associate`: the value of `nearest` (whose initial value is the third argument), box_registration.h:108-150. -/
def associateF (DIM : Nat) (dims query nearest : Nat → Fp spec) : Outcome (Nat → Fp spec) :=
  let s := (List.range DIM).foldl (stepF dims query) ⟨nearest, true, none⟩
  if s.inside then
    match s.best with
    | none => .error .abort
    | some (d, edge, _) => .ok (upd query d edge)
  else .ok s.nearest

end Verif.Box
