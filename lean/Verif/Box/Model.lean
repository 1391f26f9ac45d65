import Verif.Cxx.Basic
import Mathlib.Algebra.Order.Field.Basic

/-! Model of `BoxRegistration::associate`, /repo/geometry/include/rofl/geometry/box_registration.h:108-150, over an ordered field (exact
arithmetic instead of floating point). Points are functions of the coordinate, of which the first `DIM` matter. -/
namespace Verif.Box
open Verif

variable {K : Type} [Field K] [LinearOrder K]

/-- Assignment to a coordinate, box_registration.h:123-126, 147. -/
def upd {T : Type} (a : Nat → T) (d : Nat) (x : T) : Nat → T := fun i => if i = d then x else a i

/-- The local variables of the loop; `best` is (dimNearest, edgeNearest, distNearest), `none` while dimNearest is -1 and the other two
are not initialised, box_registration.h:109-118. -/
structure State (K : Type) where
  nearest : Nat → K
  inside : Bool
  best : Option (Nat × K × K)

/-- box_registration.h:129-135: the nearer edge and the distance from it. -/
def edgeDist (dim q : K) : K × K := if q < 0 then (-(1 / 2) * dim, q - -(1 / 2) * dim) else (1 / 2 * dim, 1 / 2 * dim - q)

/-- box_registration.h:137: `dimNearest < 0 || dist < distNearest`. -/
def better (dist : K) : Option (Nat × K × K) → Bool
  | none => true
  | some (_, _, dn) => decide (dist < dn)

/-- The iteration `d`, box_registration.h:121-142. -/
def step (dims query : Nat → K) (s : State K) (d : Nat) : State K :=
  if query d < -(1 / 2) * dims d then ⟨upd s.nearest d (-(1 / 2) * dims d), false, s.best⟩
  else if query d > 1 / 2 * dims d then ⟨upd s.nearest d (1 / 2 * dims d), false, s.best⟩
  else
    let ed := edgeDist (dims d) (query d)
    ⟨upd s.nearest d (query d), s.inside, if better ed.2 s.best then some (d, ed.1, ed.2) else s.best⟩

/-- `associate`: the value of `nearest` (whose initial value is the third argument), box_registration.h:107-150. -/
def associate (DIM : Nat) (dims query nearest : Nat → K) : Outcome (Nat → K) :=
  let s := (List.range DIM).foldl (step dims query) ⟨nearest, true, none⟩
  if s.inside then
    match s.best with
    | none => .error .abort
    | some (d, edge, _) => .ok (upd query d edge)
  else .ok s.nearest

end Verif.Box
