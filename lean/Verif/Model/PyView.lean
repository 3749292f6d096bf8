import Verif.Model.PyBind
import Verif.Model.FrameVelOps
import Verif.Model.Geometry

/-! Model of the objects behind Python variables for the frame classes: python_orocos_kdl/PyKDL/frames.cpp and framevel.cpp.

`def_readwrite("p", &Frame::p)` makes an attribute whose getter hands out a reference into the object (pybind11 uses
`return_value_policy::reference_internal` and keeps the object alive) and whose setter assigns, that is, copies.  A variable therefore
refers to an object together with a path of attributes.  Constructors, `__copy__`, `__deepcopy__` and the operators that return by value
make new objects.

`py::self += py::self` returns a reference to its left operand; pybind11 looks the address up among the existing Python objects of that
class and finds the left operand itself, so the variable keeps its object.  An augmented assignment for which no in-place operator is bound
is what Python makes of it: `x = x + y`.

Two locations of the same class are equal or disjoint, so the in-place operators, which work component by component on references, have
the effect of their values also when both operands are the same object.

Simplifications: `doubleVel` and the joint arrays are left out; a statement that raises a Python exception ends the program (`none`). -/

noncomputable section
namespace KDL.PyView
open PyVal

/-- Names of the attributes. -/
inductive Fld
  | force | torque | vel | rot | M | p | v | R | w
  deriving DecidableEq

/-- The getters made by `def_readwrite`: frames.cpp:125–126 (Wrench), :200–201 (Twist), :406–407 (Frame), framevel.cpp:83–84 (VectorVel),
:173–174 (TwistVel), :255–256 (RotationVel), :339–340 (FrameVel); `none` is `AttributeError`. -/
def getAttr : PyVal → Fld → Option PyVal
  | wrench a, .force => some (vec a.force)
  | wrench a, .torque => some (vec a.torque)
  | twist a, .vel => some (vec a.vel)
  | twist a, .rot => some (vec a.rot)
  | frame a, .M => some (rot a.M)
  | frame a, .p => some (vec a.p)
  | vecVel a, .p => some (vec a.p)
  | vecVel a, .v => some (vec a.v)
  | twistVel a, .vel => some (vecVel a.vel)
  | twistVel a, .rot => some (vecVel a.rot)
  | rotVel a, .R => some (rot a.R)
  | rotVel a, .w => some (vec a.w)
  | frameVel a, .M => some (rotVel a.M)
  | frameVel a, .p => some (vecVel a.p)
  | _, _ => none

/-- The setters made by `def_readwrite`, same lines: `none` for an unknown attribute or a value of another class. -/
def setAttr : PyVal → Fld → PyVal → Option PyVal
  | wrench a, .force, vec x => some (wrench { a with force := x })
  | wrench a, .torque, vec x => some (wrench { a with torque := x })
  | twist a, .vel, vec x => some (twist { a with vel := x })
  | twist a, .rot, vec x => some (twist { a with rot := x })
  | frame a, .M, rot x => some (frame { a with M := x })
  | frame a, .p, vec x => some (frame { a with p := x })
  | vecVel a, .p, vec x => some (vecVel { a with p := x })
  | vecVel a, .v, vec x => some (vecVel { a with v := x })
  | twistVel a, .vel, vecVel x => some (twistVel { a with vel := x })
  | twistVel a, .rot, vecVel x => some (twistVel { a with rot := x })
  | rotVel a, .R, rot x => some (rotVel { a with R := x })
  | rotVel a, .w, vec x => some (rotVel { a with w := x })
  | frameVel a, .M, rotVel x => some (frameVel { a with M := x })
  | frameVel a, .p, vecVel x => some (frameVel { a with p := x })
  | _, _, _ => none

/-- Augmented operators of the model. -/
inductive Op
  | add | sub | mul | div
  deriving DecidableEq

/-- In-place operators: `py::self += py::self` and `py::self -= py::self`, frames.cpp:70–71, :158–159, :233–234, framevel.cpp:108–109,
:202–203.  There is no `*=` and no `/=`.  `none` is `NotImplemented`. -/
def iop : Op → PyVal → PyVal → Option PyVal
  | .add, vec a, vec b => some (vec (a + b))
  | .add, wrench a, wrench b => some (wrench (a + b))
  | .add, twist a, twist b => some (twist (a + b))
  | .add, vecVel a, vecVel b => some (vecVel (a.addAssign b))
  | .add, twistVel a, twistVel b => some (twistVel (a.addAssign b))
  | .sub, vec a, vec b => some (vec (a - b))
  | .sub, wrench a, wrench b => some (wrench (a - b))
  | .sub, twist a, twist b => some (twist (a - b))
  | .sub, vecVel a, vecVel b => some (vecVel (a.subAssign b))
  | .sub, twistVel a, twistVel b => some (twistVel (a.subAssign b))
  | _, _, _ => none

/-- Binary operators (also the reflected ones): frames.cpp:72–77, :160–164, :235–239, :369–374, :451–454, framevel.cpp:110–124, :126, :204–206,
:212–213, :296–302, :366–376.  The operators with `doubleVel` are left out. -/
def bop : Op → PyVal → PyVal → Option PyVal
  | .add, vec a, vec b => some (vec (a + b))
  | .add, wrench a, wrench b => some (wrench (a + b))
  | .add, twist a, twist b => some (twist (a + b))
  | .add, vecVel a, vecVel b => some (vecVel (a.add b))
  | .add, vecVel a, vec b => some (vecVel (a.addR b))
  | .add, vec a, vecVel b => some (vecVel (VecVel.addL a b))
  | .add, twistVel a, twistVel b => some (twistVel (a.add b))
  | .sub, vec a, vec b => some (vec (a - b))
  | .sub, wrench a, wrench b => some (wrench (a - b))
  | .sub, twist a, twist b => some (twist (a - b))
  | .sub, vecVel a, vecVel b => some (vecVel (a.sub b))
  | .sub, vecVel a, vec b => some (vecVel (a.subR b))
  | .sub, vec a, vecVel b => some (vecVel (VecVel.subL a b))
  | .sub, twistVel a, twistVel b => some (twistVel (a.sub b))
  | .mul, vec a, num c | .mul, num c, vec a => some (vec (c • a))
  | .mul, vec a, vec b => some (vec (a * b))
  | .mul, wrench a, num c | .mul, num c, wrench a => some (wrench (c • a))
  | .mul, twist a, num c | .mul, num c, twist a => some (twist (c • a))
  | .mul, rot a, vec b => some (vec (a * b))
  | .mul, rot a, twist b => some (twist (a * b))
  | .mul, rot a, wrench b => some (wrench (a * b))
  | .mul, rot a, rot b => some (rot (a * b))
  | .mul, frame a, vec b => some (vec (a * b))
  | .mul, frame a, twist b => some (twist (a * b))
  | .mul, frame a, wrench b => some (wrench (a * b))
  | .mul, frame a, frame b => some (frame (a * b))
  | .mul, vecVel a, vecVel b => some (vecVel (a.cross b))
  | .mul, vecVel a, vec b => some (vecVel (a.crossR b))
  | .mul, vec a, vecVel b => some (vecVel (VecVel.crossL a b))
  | .mul, vecVel a, num c | .mul, num c, vecVel a => some (vecVel (VecVel.smulL c a))
  | .mul, rot a, vecVel b => some (vecVel (VecVel.rotL a b))
  | .mul, rotVel a, vecVel b => some (vecVel (a.app b))
  | .mul, rotVel a, vec b => some (vecVel (a.appR b))
  | .mul, rotVel a, twistVel b => some (twistVel (a.appTwist b))
  | .mul, rotVel a, twist b => some (twistVel (a.appTwistR b))
  | .mul, rotVel a, rotVel b => some (rotVel (a.mul b))
  | .mul, rot a, rotVel b => some (rotVel (RotVel.mulL a b))
  | .mul, rotVel a, rot b => some (rotVel (a.mulR b))
  | .mul, frameVel a, vecVel b => some (vecVel (a.app b))
  | .mul, frameVel a, vec b => some (vecVel (a.appR b))
  | .mul, frameVel a, twistVel b => some (twistVel (a.appTwist b))
  | .mul, frameVel a, twist b => some (twistVel (a.appTwistR b))
  | .mul, frameVel a, frameVel b => some (frameVel (a.mul b))
  | .mul, frame a, frameVel b => some (frameVel (FrameVel.mulL a b))
  | .mul, frameVel a, frame b => some (frameVel (a.mulR b))
  | .mul, twistVel a, num c | .mul, num c, twistVel a => some (twistVel (TwistVel.smulL c a))
  | .div, vec a, num c => some (vec (a / c))
  | .div, wrench a, num c => some (wrench (a / c))
  | .div, twist a, num c => some (twist (a / c))
  | .div, vecVel a, num c => some (vecVel (a.divR c))
  | .div, twistVel a, num c => some (twistVel (a.divR c))
  | _, _, _ => none

/-- Methods and functions that change their object. -/
inductive Meth
  /-- `o[i] = x` -/
  | setItem (i : ℤ) (x : ℝ)
  /-- `o[i, j] = x` -/
  | setItem2 (i j : ℤ) (x : ℝ)
  /-- `o.ReverseSign()` -/
  | reverseSign
  /-- `SetToZero(o)` -/
  | setToZero
  /-- `o.Normalize()` -/
  | normalize
  /-- `o.SetInverse()` -/
  | setInverse
  /-- `o.DoRotX(a)` -/
  | doRotX (a : ℝ)
  /-- `o.DoRotY(a)` -/
  | doRotY (a : ℝ)
  /-- `o.DoRotZ(a)` -/
  | doRotZ (a : ℝ)
  /-- `o.UnitX(x)` -/
  | unitX (x : Vec)
  /-- `o.UnitY(x)` -/
  | unitY (x : Vec)
  /-- `o.UnitZ(x)` -/
  | unitZ (x : Vec)

/-- A `__setitem__` of `Verif.Model.PyBind`, with the exception as `none`. -/
def item {α : Type} (r : Option (Except PyErr Unit × α)) : Option α :=
  match r with
  | some (.ok _, x) => some x
  | _ => none

/-- What these methods make of the object: frames.cpp:56–68 (`Vector.__setitem__`), :69, :95, :112, :134–141, :156, :188, :209–216, :231,
:265, :291–299, :314, :329–331, :366–368, :417–428, framevel.cpp:106, :156, :197, :242.  `RotationVel.DoRotX` and so on take a `doubleVel`
and are left out. -/
def Meth.run : Meth → PyVal → Option PyVal
  | .setItem i x, vec a => (item (a.pySet i x)).map vec
  | .setItem i x, wrench a => (item (a.pySet i x)).map wrench
  | .setItem i x, twist a => (item (a.pySet i x)).map twist
  | .setItem2 i j x, rot a => (item (a.pySet i j x)).map rot
  | .setItem2 i j x, frame a => (item (a.pySet i j x)).map frame
  | .reverseSign, vec a => some (vec (-a))
  | .reverseSign, wrench a => some (wrench (-a))
  | .reverseSign, twist a => some (twist (-a))
  | .reverseSign, vecVel a => some (vecVel a.reverseSign)
  | .reverseSign, twistVel a => some (twistVel a.reverseSign)
  | .setToZero, vec _ => some (vec 0)
  | .setToZero, wrench _ => some (wrench 0)
  | .setToZero, twist _ => some (twist 0)
  | .setToZero, vecVel a => some (vecVel a.setToZero)
  | .setToZero, twistVel a => some (twistVel a.setToZero)
  | .normalize, vec a => some (vec a.normalize.1)
  | .setInverse, rot a => some (rot a.inv)
  | .doRotX q, rot a => some (rot (a.doRotX q))
  | .doRotY q, rot a => some (rot (a.doRotY q))
  | .doRotZ q, rot a => some (rot (a.doRotZ q))
  | .unitX x, rot a => some (rot (a.setUnitX x))
  | .unitY x, rot a => some (rot (a.setUnitY x))
  | .unitZ x, rot a => some (rot (a.setUnitZ x))
  | _, _ => none

/-- What a variable refers to: an object and a path of attributes. -/
structure Ref where
  obj : ℕ
  path : List Fld

/-- The part of a value at the end of a path. -/
def getP : PyVal → List Fld → Option PyVal
  | o, [] => some o
  | o, f :: fs => do getP (← getAttr o f) fs

/-- The value with the part at the end of a path replaced. -/
def setP : PyVal → List Fld → PyVal → Option PyVal
  | _, [], x => some x
  | o, f :: fs, x => do
    let s ← getAttr o f
    let s' ← setP s fs x
    setAttr o f s'

/-- Objects in memory and variables of the program. -/
structure St where
  objs : ℕ → Option PyVal
  next : ℕ
  vars : ℕ → Option Ref

/-- At the start of a program. -/
def St.empty : St := ⟨fun _ => none, 0, fun _ => none⟩

/-- The value that a reference leads to. -/
def St.deref (s : St) (r : Ref) : Option PyVal := do getP (← s.objs r.obj) r.path

/-- The value of a variable. -/
def St.val (s : St) (v : ℕ) : Option PyVal := do s.deref (← s.vars v)

/-- `v = …` with a new object. -/
def St.new (s : St) (v : ℕ) (o : PyVal) : St :=
  ⟨fun x => if x = s.next then some o else s.objs x, s.next + 1, fun u => if u = v then some ⟨s.next, []⟩ else s.vars u⟩

/-- Writing to a location. -/
def St.write (s : St) (r : Ref) (x : PyVal) : Option St := do
  let o ← s.objs r.obj
  let o' ← setP o r.path x
  some { s with objs := fun y => if y = r.obj then some o' else s.objs y }

/-- `v = …` with an existing reference. -/
def St.setVar (s : St) (v : ℕ) (r : Ref) : St := { s with vars := fun u => if u = v then some r else s.vars u }

/-- Right operands: a variable or a float. -/
inductive Arg
  | var (u : ℕ)
  | num (c : ℝ)

/-- Value of a right operand. -/
def St.arg (s : St) : Arg → Option PyVal
  | .var u => s.val u
  | .num c => some (PyVal.num c)

/-- Statements. -/
inductive Stmt
  /-- `v = Vector(1, 2, 3)` and so on -/
  | make (v : ℕ) (o : PyVal)
  /-- `v = Vector(w)`, `v = copy.copy(w)`, `v = copy.deepcopy(w)` -/
  | copy (v w : ℕ)
  /-- `v = w` -/
  | alias (v w : ℕ)
  /-- `v = w.f` -/
  | attr (v w : ℕ) (f : Fld)
  /-- `w.f = u` -/
  | setAttr (w : ℕ) (f : Fld) (u : ℕ)
  /-- `w.m(…)` for a method that changes its object -/
  | meth (w : ℕ) (m : Meth)
  /-- `v = w + u`, `w - u`, `w * u`, `w / u` -/
  | binary (v : ℕ) (o : Op) (w : ℕ) (u : Arg)
  /-- `w += u`, `w -= u`, `w *= u`, `w /= u` -/
  | aug (w : ℕ) (o : Op) (u : Arg)
  /-- `w.f += u` and so on -/
  | augAttr (w : ℕ) (f : Fld) (o : Op) (u : Arg)

/-- Effect of a statement; `none` when it raises an exception. -/
def St.step (s : St) : Stmt → Option St
  | .make v o => some (s.new v o)
  | .copy v w => do
    let o ← s.val w
    some (s.new v o)
  | .alias v w => do
    let r ← s.vars w
    some (s.setVar v r)
  | .attr v w f => do
    let r ← s.vars w
    let o ← s.val w
    let _ ← getAttr o f
    some (s.setVar v ⟨r.obj, r.path ++ [f]⟩)
  | .setAttr w f u => do
    let r ← s.vars w
    let o ← s.val w
    let x ← s.val u
    let _ ← PyView.setAttr o f x
    s.write ⟨r.obj, r.path ++ [f]⟩ x
  | .meth w m => do
    let r ← s.vars w
    let o ← s.val w
    let x ← m.run o
    s.write r x
  | .binary v o w u => do
    let a ← s.val w
    let b ← s.arg u
    let x ← bop o a b
    some (s.new v x)
  | .aug w o u => do
    let r ← s.vars w
    let a ← s.val w
    let b ← s.arg u
    match iop o a b with
    | some x => s.write r x
    | none => do
      let x ← bop o a b
      some (s.new w x)
  | .augAttr w f o u => do
    let r ← s.vars w
    let c ← s.val w
    let a ← getAttr c f
    let b ← s.arg u
    match iop o a b with
    | some x => s.write ⟨r.obj, r.path ++ [f]⟩ x
    | none => do
      let x ← bop o a b
      let _ ← PyView.setAttr c f x
      s.write ⟨r.obj, r.path ++ [f]⟩ x

/-- A program. -/
def St.run (s : St) : List Stmt → Option St
  | [] => some s
  | o :: os => do (← s.step o).run os

end KDL.PyView
