import Verif.Functions.Model

/-! Model of /repo/geometry/src/base_geometry2.cpp and of /repo/common/include/rofl/common/vector_array.h.

The scalar type is an ordered field (exact arithmetic instead of `float`); the constant K_2PI keeps the value it has as a `float`. -/
namespace Verif.Geometry2
open Verif Functions

variable {K : Type} [Field K] [LinearOrder K] [FloorRing K]

/-- `Vector2`, types.h:72. -/
abbrev V2 (K : Type) := K × K

/-- `insideAngleInterval(angle, intervBeg, intervEnd)`, base_geometry2.cpp:64-66 (the overload for a pair, 68-70, forwards to it). -/
def insideAngleInterval (angle intervBeg intervEnd : K) : Bool :=
  decide (normalizeAngle2Pi (angle - intervBeg) < normalizeAngle2Pi (intervEnd - intervBeg))

/-- `insideAngleIntervalEq`, base_geometry2.cpp:72-74. -/
def insideAngleIntervalEq (angle intervBeg intervEnd : K) : Bool :=
  decide (normalizeAngle2Pi (angle - intervBeg) ≤ normalizeAngle2Pi (intervEnd - intervBeg))

/-- `insideAngleInterval(x, y, pBeg, pEnd)`, base_geometry2.cpp:46-62. -/
def insideCone (x y : K) (pBeg pEnd : V2 K) : Bool :=
  let scalarE := -pEnd.1 * y + pEnd.2 * x
  let scalarB := pBeg.1 * y - pBeg.2 * x
  if pBeg.1 * pEnd.2 - pEnd.1 * pBeg.2 < 0 then !(decide (-scalarE > 0) && decide (-scalarB > 0))
  else decide (scalarE > 0) && decide (scalarB > 0)

/-- `ccw`, base_geometry2.cpp:76-78. -/
def ccw (p1 p2 p3 : V2 K) : K := (p2.1 - p1.1) * (p3.2 - p1.2) - (p2.2 - p1.2) * (p3.1 - p1.1)

/-- A planar affine transformation: the rows of `[L | t]`, types.h:75. -/
structure T2 (K : Type) where
  l00 : K
  l01 : K
  t0 : K
  l10 : K
  l11 : K
  t1 : K

/-- `Transform2::Identity()`, base_geometry2.cpp:27-31. -/
def T2.id : T2 K := ⟨1, 0, 0, 0, 1, 0⟩

/-- `prerotate(Rotation2D(theta))`: product of the rotation matrix and `[L | t]`, base_geometry2.cpp:27-31. -/
def T2.prerotate (L : Libm K) (theta : K) (T : T2 K) : T2 K :=
  let c := L.cos theta
  let s := L.sin theta
  ⟨c * T.l00 - s * T.l10, c * T.l01 - s * T.l11, c * T.t0 - s * T.t1, s * T.l00 + c * T.l10, s * T.l01 + c * T.l11, s * T.t0 + c * T.t1⟩

/-- `pretranslate(v)`: adds `v` to the translation, base_geometry2.cpp:27-31. -/
def T2.pretranslate (v : V2 K) (T : T2 K) : T2 K := { T with t0 := T.t0 + v.1, t1 := T.t1 + v.2 }

/-- `transf * p`, base_geometry2.cpp:27-31. -/
def T2.apply (T : T2 K) (p : V2 K) : V2 K := (T.l00 * p.1 + T.l01 * p.2 + T.t0, T.l10 * p.1 + T.l11 * p.2 + T.t1)

/-- `poseToIsometry2`, base_geometry2.cpp:26-32 (the overload for a vector, 34-36, forwards to it). -/
def poseToIsometry2 (L : Libm K) (x y theta : K) : T2 K := (T2.id.prerotate L theta).pretranslate (x, y)

/-- The right operand of an in-place operator: another object, or a reference into the object itself, vector_array.h:80-98. -/
inductive Arg (α : Type) where
  | other (x : α)
  | self

/-- Component `d` of the operand `other` of type VectorArray when the object holds `a`, vector_array.h:80-98. -/
def Arg.vec {T : Type} (o : Arg (Nat → T)) (a : Nat → T) (d : Nat) : T := match o with
  | .other b => b d
  | .self => a d

/-- A `const Value&`: the value of another object, or a reference to the component `j` of the object itself, vector_array.h:80-98. -/
inductive ScalarArg (T : Type) where
  | other (x : T)
  | comp (j : Nat)

/-- Its value when the object holds `a`, vector_array.h:80-98. -/
def ScalarArg.read {T : Type} (s : ScalarArg T) (a : Nat → T) : T := match s with
  | .other x => x
  | .comp j => a j

/-- `(*this)[d] = x`, vector_array.h:80-98. -/
def upd {T : Type} (a : Nat → T) (d : Nat) (x : T) : Nat → T := fun i => if i = d then x else a i

/-- `operator+=`, vector_array.h:80-85: the loop `d = 0, …, dim - 1`. -/
def addAssign {T : Type} [Add T] (dim : Nat) (a : Nat → T) (o : Arg (Nat → T)) : Nat → T :=
  (List.range dim).foldl (fun a d => upd a d (a d + o.vec a d)) a

/-- `operator*=(const Type&)`, vector_array.h:94-99. -/
def mulAssign {T : Type} [Mul T] (dim : Nat) (a : Nat → T) (o : Arg (Nat → T)) : Nat → T :=
  (List.range dim).foldl (fun a d => upd a d (a d * o.vec a d)) a

/-- `operator*=(const Value&)`, vector_array.h:87-92. -/
def scaleAssign {T : Type} [Mul T] (dim : Nat) (a : Nat → T) (s : ScalarArg T) : Nat → T :=
  (List.range dim).foldl (fun a d => upd a d (a d * s.read a)) a

end Verif.Geometry2
