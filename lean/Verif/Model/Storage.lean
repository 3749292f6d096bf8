import Verif.Model.Dynamics

/-!
# Storage of joint arrays, Jacobians and inertia matrices

Construction, resizing and clearing of `JntArray`, `JntArrayVel`, `JntArrayAcc`, `Jacobian` and `JntSpaceInertiaMatrix`, and
the product of an inertia matrix with a joint array.  Citations are relative to `/repo/orocos_kdl/src`.  A stored number
that was never written is `none` (reading it gives an indeterminate value).  Out-of-memory conditions are not modelled.
-/

noncomputable section
namespace KDL.Store

/-- A stored number; `none`: allocated but never written. -/
abbrev Cell := Option ℝ

/-! ## JntArray -/

/-- `JntArray(unsigned int)`, jntarray.cpp:30; size 0 is also `JntArray()`, :26. -/
def jntNew (n : ℕ) : List Cell := List.replicate n (some 0)
/-- `JntArray::resize`, jntarray.cpp:53: `conservativeResizeLike(Zero(newSize))` copies the common part and takes the other
entries from the argument. -/
def jntResize (q : List Cell) (n : ℕ) : List Cell := q.take n ++ List.replicate (n - q.length) (some 0)
/-- `SetToZero(JntArray&)`, jntarray.cpp:106. -/
def jntZero (q : List Cell) : List Cell := q.map fun _ => some 0

/-! ## JntArrayVel, JntArrayAcc -/

/-- `JntArrayVel`, jntarrayvel.hpp:45. -/
structure JVel where
  q : List Cell
  qdot : List Cell

/-- `JntArrayVel(unsigned int)`, jntarrayvel.cpp:27. -/
def JVel.new (n : ℕ) : JVel := ⟨jntNew n, jntNew n⟩
/-- `JntArrayVel(const JntArray&,const JntArray&)`, jntarrayvel.cpp:31; `none`: the assertion fails. -/
def JVel.of2 (q qdot : List Cell) : Option JVel := if q.length = qdot.length then some ⟨q, qdot⟩ else none
/-- `JntArrayVel(const JntArray&)`, jntarrayvel.cpp:36. -/
def JVel.of1 (q : List Cell) : JVel := ⟨q, jntNew q.length⟩
/-- `JntArrayVel::resize`, jntarrayvel.cpp:41. -/
def JVel.resize (v : JVel) (n : ℕ) : JVel := ⟨jntResize v.q n, jntResize v.qdot n⟩
/-- `SetToZero(JntArrayVel&)`, jntarrayvel.cpp:105. -/
def JVel.zero (v : JVel) : JVel := ⟨jntZero v.q, jntZero v.qdot⟩

/-- `JntArrayAcc`, jntarrayacc.hpp:49. -/
structure JAcc where
  q : List Cell
  qdot : List Cell
  qdotdot : List Cell

/-- `JntArrayAcc(unsigned int)`, jntarrayacc.cpp:26. -/
def JAcc.new (n : ℕ) : JAcc := ⟨jntNew n, jntNew n, jntNew n⟩
/-- `JntArrayAcc(const JntArray&,const JntArray&,const JntArray&)`, jntarrayacc.cpp:30; `none`: the assertion fails. -/
def JAcc.of3 (q qdot qdotdot : List Cell) : Option JAcc :=
  if q.length = qdot.length ∧ qdot.length = qdotdot.length then some ⟨q, qdot, qdotdot⟩ else none
/-- `JntArrayAcc(const JntArray&,const JntArray&)`, jntarrayacc.cpp:35; `none`: the assertion fails. -/
def JAcc.of2 (q qdot : List Cell) : Option JAcc :=
  if q.length = qdot.length then some ⟨q, qdot, jntNew q.length⟩ else none
/-- `JntArrayAcc(const JntArray&)`, jntarrayacc.cpp:40. -/
def JAcc.of1 (q : List Cell) : JAcc := ⟨q, jntNew q.length, jntNew q.length⟩
/-- `JntArrayAcc::resize`, jntarrayacc.cpp:45. -/
def JAcc.resize (v : JAcc) (n : ℕ) : JAcc := ⟨jntResize v.q n, jntResize v.qdot n, jntResize v.qdotdot n⟩
/-- `SetToZero(JntArrayAcc&)`, jntarrayacc.cpp:164. -/
def JAcc.zero (v : JAcc) : JAcc := ⟨jntZero v.q, jntZero v.qdot, jntZero v.qdotdot⟩

/-! ## Jacobian -/

/-- `Jacobian(unsigned int)`, jacobian.cpp:31; no columns: also `Jacobian()`, :26.  A column is written as a whole. -/
def jacNew (n : ℕ) : List (Option Twist) := List.replicate n (some 0)
/-- `Jacobian::resize`, jacobian.cpp:54: `conservativeResize(NoChange, n)` leaves new columns unwritten. -/
def jacResize (J : List (Option Twist)) (n : ℕ) : List (Option Twist) := J.take n ++ List.replicate (n - J.length) none
/-- `SetToZero(Jacobian&)`, jacobian.cpp:79. -/
def jacZero (J : List (Option Twist)) : List (Option Twist) := J.map fun _ => some 0

/-! ## JntSpaceInertiaMatrix -/

/-- `JntSpaceInertiaMatrix`, jntspaceinertiamatrix.hpp:70: `n` rows and columns; entries outside are never read. -/
structure MStore where
  n : ℕ
  d : ℕ → ℕ → Cell

/-- `JntSpaceInertiaMatrix(int)`, jntspaceinertiamatrix.cpp:30; size 0: also the default constructor, :26. -/
def MStore.new (n : ℕ) : MStore := ⟨n, fun _ _ => some 0⟩
/-- `JntSpaceInertiaMatrix::resize`, jntspaceinertiamatrix.cpp:53: Eigen's `resize` does nothing if the size is the same,
otherwise the storage is allocated anew. -/
def MStore.resize (H : MStore) (n : ℕ) : MStore := if n = H.n then H else ⟨n, fun _ _ => none⟩
/-- `SetToZero(JntSpaceInertiaMatrix&)`, jntspaceinertiamatrix.cpp:104. -/
def MStore.zero (H : MStore) : MStore := ⟨H.n, fun _ _ => some 0⟩

/-! ## Assignment of Eigen expressions

`dest.data = expression` without a temporary: the coefficients are computed and stored in groups (the widths depend on the
vectorisation: `b` lists them), each group from what is stored at that time. -/

/-- The loop of the assignment if `dest` is an operand of the expression; `f v i` is coefficient `i` computed from the stored
numbers `v`; `k` coefficients are done. -/
def assignLoop (f : List ℝ → ℕ → ℝ) : List ℕ → ℕ → List ℝ → List ℝ
  | [], _, v => v
  | w :: ws, k, v =>
    assignLoop f ws (k + w) (v.mapIdx fun i x => if k ≤ i ∧ i < k + w then f v i else x)

/-- `Add`, jntarray.cpp:80 and jntspaceinertiamatrix.cpp:79 (`data` as a list), coefficient `i`; `a` and `b` are the stored
numbers of the operands. -/
def addC (a b : List ℝ) (i : ℕ) : ℝ := a.getD i 0 + b.getD i 0
/-- `Subtract`, jntarray.cpp:85 and jntspaceinertiamatrix.cpp:84. -/
def subC (a b : List ℝ) (i : ℕ) : ℝ := a.getD i 0 - b.getD i 0
/-- `Multiply` by a number, jntarray.cpp:90 and jntspaceinertiamatrix.cpp:89. -/
def mulC (c : ℝ) (a : List ℝ) (i : ℕ) : ℝ := c * a.getD i 0
/-- `Divide` by a number, jntarray.cpp:95 and jntspaceinertiamatrix.cpp:94. -/
def divC (c : ℝ) (a : List ℝ) (i : ℕ) : ℝ := a.getD i 0 / c

/-- Coefficient `i` of the product `H * v`, jntspaceinertiamatrix.cpp:101: one pass over the columns. -/
def coeff (H : JMat) (v : List ℝ) (i : ℕ) : ℝ := ((List.range H.n).map fun j => H.d i j * v.getD j 0).sum

/-- `Multiply(H, vec, dest)`, jntspaceinertiamatrix.cpp:99, if `dest` is a different object from `vec`; Eigen resizes
`dest`.  `none`: the sizes do not fit (Eigen precondition). -/
def mulVec (H : JMat) (v : List ℝ) : Option (List ℝ) :=
  if H.n = v.length then some ((List.range H.n).map (coeff H v)) else none

/-- `Multiply(H, vec, vec)`, jntspaceinertiamatrix.cpp:99: a `lazyProduct` is assigned without a temporary. -/
def mulVecInPlace (b : List ℕ) (H : JMat) (v : List ℝ) : Option (List ℝ) :=
  if H.n = v.length then some (assignLoop (coeff H) b 0 v) else none
end KDL.Store
