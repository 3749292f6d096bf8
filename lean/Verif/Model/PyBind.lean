import Verif.Model.FrameVelOps
import Verif.Model.Dynamics
import Verif.Model.Tree

/-! Model of the Python bindings, `/repo/python_orocos_kdl/PyKDL/{frames,framevel,kinfam,dynamics}.cpp`: element access
with `[]`, pickling, and the unchecked accessors.  Everything else there binds a C++ function or operator under its own
name and is covered by the model of that function.

A Python integer is an unbounded `ℤ`; pybind11 converts it to `int` or `unsigned int` and raises `TypeError` if it does
not fit.  `py::index_error`, `std::runtime_error` and `py::cast_error` are Python exceptions; `none` is undefined
behaviour in C++ (access outside an array).  pybind11 itself and Python's `pickle` module (which stores floats exactly and
calls `__getstate__`/`__setstate__` recursively) are external and modelled by what they are documented to do. -/

noncomputable section
namespace KDL

/-- Exceptions as seen from Python. -/
inductive PyErr where
  | indexError
  | typeError
  | runtimeError
  | castError
  deriving DecidableEq

/-- Result of a bound function: `none` is undefined behaviour. -/
abbrev Py (α : Type) := Option (Except PyErr α)

/-- Conversion of a Python integer to `int`. -/
def argInt (i : ℤ) : Except PyErr ℤ := if -2 ^ 31 ≤ i ∧ i < 2 ^ 31 then .ok i else .error .typeError
/-- Conversion of a Python integer to `unsigned int`. -/
def argUInt (i : ℤ) : Except PyErr ℕ := if 0 ≤ i ∧ i < 2 ^ 32 then .ok i.toNat else .error .typeError

/-- A bound function with one `int` argument. -/
def withInt {α : Type} (i : ℤ) (f : ℤ → Py α) : Py α :=
  match argInt i with
  | .error e => some (.error e)
  | .ok i => f i
/-- A bound function with a `std::tuple<int, int>` argument. -/
def withInt2 {α : Type} (i j : ℤ) (f : ℤ → ℤ → Py α) : Py α := withInt i fun i => withInt j fun j => f i j
/-- A bound function with one `unsigned int` argument. -/
def withUInt {α : Type} (i : ℤ) (f : ℕ → Py α) : Py α :=
  match argUInt i with
  | .error e => some (.error e)
  | .ok i => f i

/-! ## Raw storage -/

/-- `Vector::operator()(int) const`, frames.inl:143: `data[index]` (the check is an assertion). -/
def Vec.data (v : Vec) : ℤ → Option ℝ
  | 0 => some v.x
  | 1 => some v.y
  | 2 => some v.z
  | _ => none
/-- `data[index] = value` through `Vector::operator()(int)`, frames.inl:148. -/
def Vec.setData (v : Vec) (i : ℤ) (value : ℝ) : Option Vec :=
  match i with
  | 0 => some { v with x := value }
  | 1 => some { v with y := value }
  | 2 => some { v with z := value }
  | _ => none
/-- `Wrench::operator()(int) const`, frames.inl:232. -/
def Wrench.data (w : Wrench) (i : ℤ) : Option ℝ := if i < 3 then w.force.data i else w.torque.data (i - 3)
/-- Write through `Wrench::operator()(int)`, frames.inl:223. -/
def Wrench.setData (w : Wrench) (i : ℤ) (value : ℝ) : Option Wrench :=
  if i < 3 then (w.force.setData i value).map fun f => { w with force := f }
  else (w.torque.setData (i - 3) value).map fun t => { w with torque := t }
/-- `Twist::operator()(int) const`, frames.inl:335. -/
def Twist.data (t : Twist) (i : ℤ) : Option ℝ := if i < 3 then t.vel.data i else t.rot.data (i - 3)
/-- Write through `Twist::operator()(int)`, frames.inl:326. -/
def Twist.setData (t : Twist) (i : ℤ) (value : ℝ) : Option Twist :=
  if i < 3 then (t.vel.setData i value).map fun v => { t with vel := v }
  else (t.rot.setData (i - 3) value).map fun r => { t with rot := r }
/-- `data[k]` of a rotation, row by row (frames.hpp:306, frames.inl:502). -/
def Rot.data (R : Rot) : ℤ → Option ℝ
  | 0 => some R.m00 | 1 => some R.m01 | 2 => some R.m02
  | 3 => some R.m10 | 4 => some R.m11 | 5 => some R.m12
  | 6 => some R.m20 | 7 => some R.m21 | 8 => some R.m22
  | _ => none
/-- `data[k] = value` of a rotation. -/
def Rot.setData (R : Rot) (k : ℤ) (value : ℝ) : Option Rot :=
  match k with
  | 0 => some { R with m00 := value } | 1 => some { R with m01 := value } | 2 => some { R with m02 := value }
  | 3 => some { R with m10 := value } | 4 => some { R with m11 := value } | 5 => some { R with m12 := value }
  | 6 => some { R with m20 := value } | 7 => some { R with m21 := value } | 8 => some { R with m22 := value }
  | _ => none
/-- `Rotation::operator()(int,int) const`, frames.inl:493: `data[i*3+j]`. -/
def Rot.at2 (R : Rot) (i j : ℤ) : Option ℝ := R.data (i * 3 + j)
/-- `Frame::operator()(int,int) const`, frames.inl:683. -/
def Frame.at2 (F : Frame) (i j : ℤ) : Option ℝ :=
  if i = 3 then (if j = 3 then some 1 else some 0)
  else if j = 3 then F.p.data i
  else F.M.at2 i j
/-- `data[k]` of a rotational inertia (rotationalinertia.hpp:66, column by column). -/
def Mat3.data (I : Mat3) : ℤ → Option ℝ
  | 0 => some I.a00 | 1 => some I.a10 | 2 => some I.a20
  | 3 => some I.a01 | 4 => some I.a11 | 5 => some I.a21
  | 6 => some I.a02 | 7 => some I.a12 | 8 => some I.a22
  | _ => none
/-- `data[k] = value` of a rotational inertia. -/
def Mat3.setData (I : Mat3) (k : ℤ) (value : ℝ) : Option Mat3 :=
  match k with
  | 0 => some { I with a00 := value } | 1 => some { I with a10 := value } | 2 => some { I with a20 := value }
  | 3 => some { I with a01 := value } | 4 => some { I with a11 := value } | 5 => some { I with a21 := value }
  | 6 => some { I with a02 := value } | 7 => some { I with a12 := value } | 8 => some { I with a22 := value }
  | _ => none
/-- `Jacobian::operator()(unsigned,unsigned) const`, jacobian.cpp:59: row `i`, column `j`. -/
def Jac.at2 (J : Jac) (i j : ℕ) : Option ℝ := do
  let t ← J[j]?
  if i < 6 then t.data i else none
/-- Write through `Jacobian::operator()(unsigned,unsigned)`, jacobian.cpp:64. -/
def Jac.setAt2 (J : Jac) (i j : ℕ) (value : ℝ) : Option Jac := do
  let t ← J[j]?
  let t' ← if i < 6 then t.setData i value else none
  some (J.set j t')

/-! ## `__getitem__` and `__setitem__`

A setter returns the exception or success together with the object afterwards. -/

/-- The value of `None` for a successful setter. -/
def setOk {α : Type} (o : Option α) : Option (Except PyErr Unit × α) := o.map fun x => (.ok (), x)
/-- A setter that raised an exception leaves the object alone. -/
def setErr {α : Type} (e : PyErr) (x : α) : Option (Except PyErr Unit × α) := some (.error e, x)
/-- A bound setter with one `int` index. -/
def setInt {α : Type} (x : α) (i : ℤ) (f : ℤ → Option (Except PyErr Unit × α)) : Option (Except PyErr Unit × α) :=
  match argInt i with
  | .error e => setErr e x
  | .ok i => f i
/-- A bound setter with a tuple index. -/
def setInt2 {α : Type} (x : α) (i j : ℤ) (f : ℤ → ℤ → Option (Except PyErr Unit × α)) :
    Option (Except PyErr Unit × α) := setInt x i fun i => setInt x j fun j => f i j

/-- `Vector.__getitem__`, frames.cpp:49. -/
def Vec.pyGet (v : Vec) (i : ℤ) : Py ℝ := withInt i fun i =>
  if i < 0 ∨ i > 2 then some (.error .indexError) else (v.data i).map .ok
/-- `Vector.__setitem__`, frames.cpp:56. -/
def Vec.pySet (v : Vec) (i : ℤ) (value : ℝ) : Option (Except PyErr Unit × Vec) := setInt v i fun i =>
  if i < 0 ∨ i > 2 then setErr .indexError v else setOk (v.setData i value)
/-- `Wrench.__getitem__`, frames.cpp:127. -/
def Wrench.pyGet (t : Wrench) (i : ℤ) : Py ℝ := withInt i fun i =>
  if i < 0 ∨ i > 5 then some (.error .indexError) else (t.data i).map .ok
/-- `Wrench.__setitem__`, frames.cpp:134. -/
def Wrench.pySet (t : Wrench) (i : ℤ) (value : ℝ) : Option (Except PyErr Unit × Wrench) := setInt t i fun i =>
  if i < 0 ∨ i > 5 then setErr .indexError t else setOk (t.setData i value)
/-- `Twist.__getitem__`, frames.cpp:202. -/
def Twist.pyGet (t : Twist) (i : ℤ) : Py ℝ := withInt i fun i =>
  if i < 0 ∨ i > 5 then some (.error .indexError) else (t.data i).map .ok
/-- `Twist.__setitem__`, frames.cpp:209. -/
def Twist.pySet (t : Twist) (i : ℤ) (value : ℝ) : Option (Except PyErr Unit × Twist) := setInt t i fun i =>
  if i < 0 ∨ i > 5 then setErr .indexError t else setOk (t.setData i value)
/-- `Rotation.__getitem__`, frames.cpp:282. -/
def Rot.pyGet (r : Rot) (i j : ℤ) : Py ℝ := withInt2 i j fun i j =>
  if i < 0 ∨ i > 2 ∨ j < 0 ∨ j > 2 then some (.error .indexError) else (r.at2 i j).map .ok
/-- `Rotation.__setitem__`, frames.cpp:291. -/
def Rot.pySet (r : Rot) (i j : ℤ) (value : ℝ) : Option (Except PyErr Unit × Rot) := setInt2 r i j fun i j =>
  if i < 0 ∨ i > 2 ∨ j < 0 ∨ j > 2 then setErr .indexError r else setOk (r.setData (i * 3 + j) value)
/-- `Frame.__getitem__`, frames.cpp:408. -/
def Frame.pyGet (F : Frame) (i j : ℤ) : Py ℝ := withInt2 i j fun i j =>
  if i < 0 ∨ i > 2 ∨ j < 0 ∨ j > 3 then some (.error .indexError) else (F.at2 i j).map .ok
/-- `Frame.__setitem__`, frames.cpp:417. -/
def Frame.pySet (F : Frame) (i j : ℤ) (value : ℝ) : Option (Except PyErr Unit × Frame) := setInt2 F i j fun i j =>
  if i < 0 ∨ i > 2 ∨ j < 0 ∨ j > 3 then setErr .indexError F
  else if j = 3 then setOk ((F.p.setData i value).map fun p => { F with p := p })
  else setOk ((F.M.setData (i * 3 + j) value).map fun M => { F with M := M })
/-- `RotationalInertia.__getitem__`, kinfam.cpp:108. -/
def Mat3.pyGet (I : Mat3) (i : ℤ) : Py ℝ := withInt i fun i =>
  if i < 0 ∨ i > 8 then some (.error .indexError) else (I.data i).map .ok
/-- `RotationalInertia.__setitem__`, kinfam.cpp:115. -/
def Mat3.pySet (I : Mat3) (i : ℤ) (value : ℝ) : Option (Except PyErr Unit × Mat3) := setInt I i fun i =>
  if i < 0 ∨ i > 8 then setErr .indexError I else setOk (I.setData i value)
/-- `JntArray.__getitem__`, kinfam.cpp:265. -/
def pyGetJnt (q : List ℝ) (i : ℤ) : Py ℝ := withInt i fun i =>
  if i < 0 ∨ i.toNat ≥ q.length then some (.error .indexError) else (q[i.toNat]?).map .ok
/-- `JntArray.__setitem__`, kinfam.cpp:272. -/
def pySetJnt (q : List ℝ) (i : ℤ) (value : ℝ) : Option (Except PyErr Unit × List ℝ) := setInt q i fun i =>
  if i < 0 ∨ i.toNat ≥ q.length then setErr .indexError q
  else setOk (if i.toNat < q.length then some (q.set i.toNat value) else none)
/-- `Jacobian.__getitem__`, kinfam.cpp:225. -/
def Jac.pyGet (J : Jac) (i j : ℤ) : Py ℝ := withInt2 i j fun i j =>
  if i < 0 ∨ i > 5 ∨ j < 0 ∨ j.toNat ≥ J.length then some (.error .indexError)
  else (Jac.at2 J i.toNat j.toNat).map .ok
/-- `Jacobian.__setitem__`, kinfam.cpp:233. -/
def Jac.pySet (J : Jac) (i j : ℤ) (value : ℝ) : Option (Except PyErr Unit × Jac) := setInt2 J i j fun i j =>
  if i < 0 ∨ i > 5 ∨ j < 0 ∨ j.toNat ≥ J.length then setErr .indexError J
  else setOk (Jac.setAt2 J i.toNat j.toNat value)
/-- `JntSpaceInertiaMatrix.__getitem__`, dynamics.cpp:49. -/
def JMat.pyGet (H : JMat) (i j : ℤ) : Py ℝ := withInt2 i j fun i j =>
  if i < 0 ∨ i.toNat ≥ H.n ∨ j < 0 ∨ j.toNat ≥ H.n then some (.error .indexError) else (H.get i j).map .ok
/-- `JntSpaceInertiaMatrix.__setitem__`, dynamics.cpp:58. -/
def JMat.pySet (H : JMat) (i j : ℤ) (value : ℝ) : Option (Except PyErr Unit × JMat) := setInt2 H i j fun i j =>
  if i < 0 ∨ i.toNat ≥ H.n ∨ j < 0 ∨ j.toNat ≥ H.n then setErr .indexError H else setOk (H.set i j value)

/-- Python's iteration over an object with `__getitem__` but without `__iter__` (`list(v)`): the items 0, 1, … until
`IndexError`; other exceptions are passed on. -/
def pyList {α : Type} (get : ℤ → Py α) : ℕ → ℤ → Py (List α)
  | 0, _ => none
  | fuel + 1, i =>
    match get i with
    | none => none
    | some (.error .indexError) => some (.ok [])
    | some (.error e) => some (.error e)
    | some (.ok x) =>
      match pyList get fuel (i + 1) with
      | none => none
      | some (.error e) => some (.error e)
      | some (.ok l) => some (.ok (x :: l))

/-! ## Accessors bound without a check -/

/-- `Chain.getSegment`, kinfam.cpp:176–177. -/
def pyGetSegment (c : Chain) (i : ℤ) : Py Segment := withUInt i fun i => (c.getSegment i).map .ok
/-- `Jacobian.getColumn`, kinfam.cpp:220 and jacobian.cpp:144. -/
def pyGetColumn (J : Jac) (i : ℤ) : Py Twist := withUInt i fun i => (J[i]?).map .ok
/-- `Jacobian.setColumn`, kinfam.cpp:221 and jacobian.cpp:148. -/
def pySetColumn (J : Jac) (i : ℤ) (t : Twist) : Py Jac := withUInt i fun i => (Jac.setColumn J i t).map .ok
/-- `Tree.getChain`, kinfam.cpp:196: the return value of `Tree::getChain` is dropped. -/
def pyGetChain (t : Tree) (chain_root chain_tip : String) : Py Chain :=
  (t.getChain chain_root chain_tip).map fun r => .ok r.2

/-! ## Pickling -/

/-- Python objects that occur in pickles of the bound classes. -/
inductive PyVal where
  | num (x : ℝ)
  | vec (v : Vec)
  | wrench (w : Wrench)
  | twist (t : Twist)
  | rot (R : Rot)
  | frame (F : Frame)
  | vecVel (v : VecVel)
  | twistVel (t : TwistVel)
  | rotVel (R : RotVel)
  | frameVel (F : FrameVel)

/-- Classes with `py::pickle`. -/
inductive PyClass where
  | vec | wrench | twist | rot | frame | vecVel | twistVel | rotVel | frameVel
  deriving DecidableEq

/-- Content of a pickle: a float, or a class with the pickled state tuple. -/
inductive Pkl where
  | num (x : ℝ)
  | obj (c : PyClass) (state : List Pkl)

namespace PyVal
/-- Depth of nesting of the states; only for termination. -/
def rank : PyVal → ℕ
  | num _ => 0
  | vec _ | rot _ => 1
  | wrench _ | twist _ | frame _ | vecVel _ | rotVel _ => 2
  | twistVel _ | frameVel _ => 3

/-- The `__getstate__` functions: frames.cpp:97 (Vector), :173 (Wrench), :248 (Twist), :377 (Rotation, through the roll,
pitch and yaw angles), :459 (Frame), framevel.cpp:141 (VectorVel), :227 (TwistVel), :312 (RotationVel), :386 (FrameVel).
Floats are pickled by Python itself. -/
def getstate : PyVal → ℝ ⊕ (PyClass × List PyVal)
  | num x => .inl x
  | vec v => .inr (.vec, [num v.x, num v.y, num v.z])
  | wrench w => .inr (.wrench, [vec w.force, vec w.torque])
  | twist t => .inr (.twist, [vec t.vel, vec t.rot])
  | rot R => let a := R.getRPY; .inr (.rot, [num a.roll, num a.pitch, num a.yaw])
  | frame F => .inr (.frame, [rot F.M, vec F.p])
  | vecVel v => .inr (.vecVel, [vec v.p, vec v.v])
  | twistVel t => .inr (.twistVel, [vecVel t.vel, vecVel t.rot])
  | rotVel R => .inr (.rotVel, [rot R.R, vec R.w])
  | frameVel F => .inr (.frameVel, [rotVel F.M, vecVel F.p])

/-- `t[i].cast<double>()`. -/
def toNum : PyVal → Except PyErr ℝ | num x => .ok x | _ => .error .castError
/-- `t[i].cast<Vector>()`. -/
def toVec : PyVal → Except PyErr Vec | vec v => .ok v | _ => .error .castError
/-- `t[i].cast<Rotation>()`. -/
def toRot : PyVal → Except PyErr Rot | rot R => .ok R | _ => .error .castError
/-- `t[i].cast<VectorVel>()`. -/
def toVecVel : PyVal → Except PyErr VecVel | vecVel v => .ok v | _ => .error .castError
/-- `t[i].cast<RotationVel>()`. -/
def toRotVel : PyVal → Except PyErr RotVel | rotVel R => .ok R | _ => .error .castError

/-- The `__setstate__` functions, following the `__getstate__` functions in the sources: the size of the tuple is
checked, then every element is converted. -/
def setstate : PyClass → List PyVal → Except PyErr PyVal
  | .vec, [a, b, c] => do return vec ⟨← a.toNum, ← b.toNum, ← c.toNum⟩
  | .wrench, [a, b] => do return wrench ⟨← a.toVec, ← b.toVec⟩
  | .twist, [a, b] => do return twist ⟨← a.toVec, ← b.toVec⟩
  | .rot, [a, b, c] => do return rot (Rot.rpy (← a.toNum) (← b.toNum) (← c.toNum))
  | .frame, [a, b] => do return frame ⟨← a.toRot, ← b.toVec⟩
  | .vecVel, [a, b] => do return vecVel ⟨← a.toVec, ← b.toVec⟩
  | .twistVel, [a, b] => do return twistVel ⟨← a.toVecVel, ← b.toVecVel⟩
  | .rotVel, [a, b] => do return rotVel ⟨← a.toRot, ← b.toVec⟩
  | .frameVel, [a, b] => do return frameVel ⟨← a.toRotVel, ← b.toVecVel⟩
  | _, _ => .error .runtimeError

theorem rank_getstate {o : PyVal} {c : PyClass} {l : List PyVal} (h : o.getstate = .inr (c, l)) :
    ∀ x ∈ l, x.rank < o.rank := by
  cases o <;> simp only [getstate, Sum.inr.injEq, Prod.mk.injEq, reduceCtorEq] at h <;>
    obtain ⟨-, rfl⟩ := h <;> simp [rank]

/-- `pickle.dumps`: the class and the pickled elements of the state. -/
def dumps (o : PyVal) : Pkl :=
  match h : o.getstate with
  | .inl x => .num x
  | .inr (c, l) => .obj c (l.attach.map fun x => dumps x.1)
termination_by o.rank
decreasing_by exact rank_getstate h _ x.2

mutual
/-- `pickle.loads`: the elements of the state first, then `__setstate__`. -/
def loads : Pkl → Except PyErr PyVal
  | .num x => .ok (num x)
  | .obj c st => do setstate c (← loadsAll st)
/-- `pickle.loads` of the elements of a tuple. -/
def loadsAll : List Pkl → Except PyErr (List PyVal)
  | [] => .ok []
  | p :: ps => do return (← loads p) :: (← loadsAll ps)
end

/-- `operator==` as bound (`py::self == py::self`): `Equal` with the tolerance of the library. -/
def eq (eps : ℝ) : PyVal → PyVal → Prop
  | num x, num y => x = y
  | vec a, vec b => Vec.equal a b eps
  | wrench a, wrench b => Wrench.equal a b eps
  | twist a, twist b => Twist.equal a b eps
  | rot a, rot b => Rot.equal a b eps
  | frame a, frame b => Frame.equal a b eps
  | vecVel a, vecVel b => VecVel.equal a b eps
  | twistVel a, twistVel b => TwistVel.equal a b eps
  | rotVel a, rotVel b => RotVel.equal a b eps
  | frameVel a, frameVel b => FrameVel.equal a b eps
  | _, _ => False
end PyVal
end KDL
