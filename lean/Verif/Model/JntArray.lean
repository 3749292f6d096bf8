import Verif.Model.Chain
import Verif.Model.Rall

/-! `JntArray`, `JntArrayVel`, `JntArrayAcc` operations with explicit object identities (so that a destination may be
the same object as a source), and the column loops of `Jacobian`. -/

noncomputable section
namespace KDL

/-- Members of `JntArrayAcc` (jntarrayacc.hpp:45–47) and, without the last, `JntArrayVel` (jntarrayvel.hpp:45–46). -/
inductive JField
  | q | qdot | qdotdot
  deriving DecidableEq

/-- Objects are numbered; every member array has `n` entries (arrays of different sizes violate an Eigen precondition
and are not modelled; assignment to `dest.data` would resize the destination). -/
abbrev JHeap (n : ℕ) := ℕ → JField → Fin n → ℝ

namespace JHeap
variable {n : ℕ}
/-- Store into one member. -/
def set (h : JHeap n) (o : ℕ) (f : JField) (v : Fin n → ℝ) : JHeap n :=
  fun o' f' => if o' = o ∧ f' = f then v else h o' f'

/-- `Add(JntArray,JntArray,JntArray)`, jntarray.cpp:80; each argument is a member of an object. -/
def add (a b d : ℕ × JField) (h : JHeap n) : JHeap n := h.set d.1 d.2 fun i => h a.1 a.2 i + h b.1 b.2 i
/-- `Subtract`, jntarray.cpp:85. -/
def sub (a b d : ℕ × JField) (h : JHeap n) : JHeap n := h.set d.1 d.2 fun i => h a.1 a.2 i - h b.1 b.2 i
/-- `Multiply`, jntarray.cpp:90.  The factor is a value (a reference into the destination array is not modelled). -/
def mul (a : ℕ × JField) (c : ℝ) (d : ℕ × JField) (h : JHeap n) : JHeap n := h.set d.1 d.2 fun i => c * h a.1 a.2 i
/-- `Divide`, jntarray.cpp:95. -/
def div (a : ℕ × JField) (c : ℝ) (d : ℕ × JField) (h : JHeap n) : JHeap n := h.set d.1 d.2 fun i => h a.1 a.2 i / c
/-- `JntArray::operator=`, jntarray.cpp:42. -/
def assign (a d : ℕ × JField) (h : JHeap n) : JHeap n := h.set d.1 d.2 (h a.1 a.2)

open JField

/-- `Add(JntArrayVel,JntArrayVel,JntArrayVel)`, jntarrayvel.cpp:57. -/
def addVel (a b d : ℕ) (h : JHeap n) : JHeap n :=
  let h := add (a, q) (b, q) (d, q) h
  add (a, qdot) (b, qdot) (d, qdot) h
/-- `Add(JntArrayVel,JntArray,JntArrayVel)`, jntarrayvel.cpp:62. -/
def addVelJnt (a : ℕ) (b : ℕ × JField) (d : ℕ) (h : JHeap n) : JHeap n :=
  let h := add (a, q) b (d, q) h
  assign (a, qdot) (d, qdot) h
/-- `Subtract(JntArrayVel,JntArrayVel,JntArrayVel)`, jntarrayvel.cpp:68. -/
def subVel (a b d : ℕ) (h : JHeap n) : JHeap n :=
  let h := sub (a, q) (b, q) (d, q) h
  sub (a, qdot) (b, qdot) (d, qdot) h
/-- `Subtract(JntArrayVel,JntArray,JntArrayVel)`, jntarrayvel.cpp:73. -/
def subVelJnt (a : ℕ) (b : ℕ × JField) (d : ℕ) (h : JHeap n) : JHeap n :=
  let h := sub (a, q) b (d, q) h
  assign (a, qdot) (d, qdot) h
/-- `Multiply(JntArrayVel,double,JntArrayVel)`, jntarrayvel.cpp:79. -/
def mulVelDouble (a : ℕ) (c : ℝ) (d : ℕ) (h : JHeap n) : JHeap n :=
  let h := mul (a, q) c (d, q) h
  mul (a, qdot) c (d, qdot) h
/-- `Divide(JntArrayVel,double,JntArrayVel)`, jntarrayvel.cpp:92. -/
def divVelDouble (a : ℕ) (c : ℝ) (d : ℕ) (h : JHeap n) : JHeap n :=
  let h := div (a, q) c (d, q) h
  div (a, qdot) c (d, qdot) h
/-- `Multiply(JntArrayVel,doubleVel,JntArrayVel)`, jntarrayvel.cpp:84. -/
def mulVelVel (a : ℕ) (c : Rall1d) (d : ℕ) (h : JHeap n) : JHeap n :=
  let h := mul (a, q) c.grad (d, q) h
  let h := mul (a, qdot) c.t (d, qdot) h
  let h := add (d, qdot) (d, q) (d, qdot) h
  mul (a, q) c.t (d, q) h
/-- `Divide(JntArrayVel,doubleVel,JntArrayVel)`, jntarrayvel.cpp:97. -/
def divVelVel (a : ℕ) (c : Rall1d) (d : ℕ) (h : JHeap n) : JHeap n :=
  let h := mul (a, q) (c.grad / c.t / c.t) (d, q) h
  let h := div (a, qdot) c.t (d, qdot) h
  let h := sub (d, qdot) (d, q) (d, qdot) h
  div (a, q) c.t (d, q) h

/-- `Add(JntArrayAcc,JntArrayAcc,JntArrayAcc)`, jntarrayacc.cpp:66. -/
def addAcc (a b d : ℕ) (h : JHeap n) : JHeap n :=
  let h := add (a, q) (b, q) (d, q) h
  let h := add (a, qdot) (b, qdot) (d, qdot) h
  add (a, qdotdot) (b, qdotdot) (d, qdotdot) h
/-- `Add(JntArrayAcc,JntArrayVel,JntArrayAcc)`, jntarrayacc.cpp:72. -/
def addAccVel (a b d : ℕ) (h : JHeap n) : JHeap n :=
  let h := add (a, q) (b, q) (d, q) h
  let h := add (a, qdot) (b, qdot) (d, qdot) h
  assign (a, qdotdot) (d, qdotdot) h
/-- `Add(JntArrayAcc,JntArray,JntArrayAcc)`, jntarrayacc.cpp:78. -/
def addAccJnt (a : ℕ) (b : ℕ × JField) (d : ℕ) (h : JHeap n) : JHeap n :=
  let h := add (a, q) b (d, q) h
  let h := assign (a, qdot) (d, qdot) h
  assign (a, qdotdot) (d, qdotdot) h
/-- `Subtract(JntArrayAcc,JntArrayAcc,JntArrayAcc)`, jntarrayacc.cpp:85. -/
def subAcc (a b d : ℕ) (h : JHeap n) : JHeap n :=
  let h := sub (a, q) (b, q) (d, q) h
  let h := sub (a, qdot) (b, qdot) (d, qdot) h
  sub (a, qdotdot) (b, qdotdot) (d, qdotdot) h
/-- `Subtract(JntArrayAcc,JntArrayVel,JntArrayAcc)`, jntarrayacc.cpp:91. -/
def subAccVel (a b d : ℕ) (h : JHeap n) : JHeap n :=
  let h := sub (a, q) (b, q) (d, q) h
  let h := sub (a, qdot) (b, qdot) (d, qdot) h
  assign (a, qdotdot) (d, qdotdot) h
/-- `Subtract(JntArrayAcc,JntArray,JntArrayAcc)`, jntarrayacc.cpp:97. -/
def subAccJnt (a : ℕ) (b : ℕ × JField) (d : ℕ) (h : JHeap n) : JHeap n :=
  let h := sub (a, q) b (d, q) h
  let h := assign (a, qdot) (d, qdot) h
  assign (a, qdotdot) (d, qdotdot) h
/-- `Multiply(JntArrayAcc,double,JntArrayAcc)`, jntarrayacc.cpp:104. -/
def mulAccDouble (a : ℕ) (c : ℝ) (d : ℕ) (h : JHeap n) : JHeap n :=
  let h := mul (a, q) c (d, q) h
  let h := mul (a, qdot) c (d, qdot) h
  mul (a, qdotdot) c (d, qdotdot) h
/-- `Divide(JntArrayAcc,double,JntArrayAcc)`, jntarrayacc.cpp:133. -/
def divAccDouble (a : ℕ) (c : ℝ) (d : ℕ) (h : JHeap n) : JHeap n :=
  let h := div (a, q) c (d, q) h
  let h := div (a, qdot) c (d, qdot) h
  div (a, qdotdot) c (d, qdotdot) h
/-- `Multiply(JntArrayAcc,doubleVel,JntArrayAcc)`, jntarrayacc.cpp:110. -/
def mulAccVel (a : ℕ) (c : Rall1d) (d : ℕ) (h : JHeap n) : JHeap n :=
  let h := mul (a, qdot) (c.grad * 2) (d, qdot) h
  let h := mul (a, qdotdot) c.t (d, qdotdot) h
  let h := add (d, qdot) (d, qdotdot) (d, qdotdot) h
  let h := mul (a, q) c.grad (d, q) h
  let h := mul (a, qdot) c.t (d, qdot) h
  let h := add (d, qdot) (d, q) (d, qdot) h
  mul (a, q) c.t (d, q) h
/-- `Multiply(JntArrayAcc,doubleAcc,JntArrayAcc)`, jntarrayacc.cpp:120. -/
def mulAccAcc (a : ℕ) (c : Rall2d) (d : ℕ) (h : JHeap n) : JHeap n :=
  let h := mul (a, q) c.dd (d, q) h
  let h := mul (a, qdot) (c.d * 2) (d, qdot) h
  let h := mul (a, qdotdot) c.t (d, qdotdot) h
  let h := add (d, qdotdot) (d, qdot) (d, qdotdot) h
  let h := add (d, qdotdot) (d, q) (d, qdotdot) h
  let h := mul (a, q) c.d (d, q) h
  let h := mul (a, qdot) c.t (d, qdot) h
  let h := add (d, qdot) (d, q) (d, qdot) h
  mul (a, q) c.t (d, q) h
/-- `Divide(JntArrayAcc,doubleVel,JntArrayAcc)`, jntarrayacc.cpp:139. -/
def divAccVel (a : ℕ) (c : Rall1d) (d : ℕ) (h : JHeap n) : JHeap n :=
  let h := mul (a, q) ((2 * c.grad * c.grad) / (c.t * c.t * c.t)) (d, q) h
  let h := mul (a, qdot) ((2 * c.grad) / (c.t * c.t)) (d, qdot) h
  let h := div (a, qdotdot) c.t (d, qdotdot) h
  let h := sub (d, qdotdot) (d, qdot) (d, qdotdot) h
  let h := add (d, qdotdot) (d, q) (d, qdotdot) h
  let h := mul (a, q) (c.grad / (c.t * c.t)) (d, q) h
  let h := div (a, qdot) c.t (d, qdot) h
  let h := sub (d, qdot) (d, q) (d, qdot) h
  div (a, q) c.t (d, q) h
/-- `Divide(JntArrayAcc,doubleAcc,JntArrayAcc)`, jntarrayacc.cpp:151. -/
def divAccAcc (a : ℕ) (c : Rall2d) (d : ℕ) (h : JHeap n) : JHeap n :=
  let h := mul (a, q) ((2 * c.d * c.d) / (c.t * c.t * c.t) - c.dd / (c.t * c.t)) (d, q) h
  let h := mul (a, qdot) ((2 * c.d) / (c.t * c.t)) (d, qdot) h
  let h := div (a, qdotdot) c.t (d, qdotdot) h
  let h := sub (d, qdotdot) (d, qdot) (d, qdotdot) h
  let h := add (d, qdotdot) (d, q) (d, qdotdot) h
  let h := mul (a, q) (c.d / (c.t * c.t)) (d, q) h
  let h := div (a, qdot) c.t (d, qdot) h
  let h := sub (d, qdot) (d, q) (d, qdot) h
  div (a, q) c.t (d, q) h

/-- Entry `i` of object `o` as a first-order dual number. -/
def at1 (h : JHeap n) (o : ℕ) (i : Fin n) : Rall1d := ⟨h o q i, h o qdot i⟩
/-- Entry `i` of object `o` as a second-order dual number. -/
def at2 (h : JHeap n) (o : ℕ) (i : Fin n) : Rall2d := ⟨h o q i, h o qdot i, h o qdotdot i⟩
end JHeap

/-! ## Jacobian loops -/

/-- Column loop of the free functions jacobian.cpp:93, :107, :121 over the remaining `k` columns starting at `i`; `same`
says that source and destination are the same object.  `none` = access outside the matrix. -/
def jacChangeLoop (same : Bool) (op : Twist → Twist) (src : Jac) : ℕ → ℕ → Jac → Option Jac
  | _, 0, dest => some dest
  | i, k + 1, dest => do
    let t ← (if same then dest[i]? else src[i]?)
    let d ← dest.setColumn i (op t)
    jacChangeLoop same op src (i + 1) k d
/-- The free functions `changeRefPoint`/`changeBase`/`changeRefFrame(src, ·, dest)`, jacobian.cpp:89, :103, :117. -/
def jacChange (same : Bool) (op : Twist → Twist) (src dest : Jac) : Option (Bool × Jac) :=
  if src.length ≠ dest.length then some (false, dest)
  else do
    let d ← jacChangeLoop same op src 0 src.length dest
    some (true, d)

/-- `Equal(JntArray,JntArray,eps)`, jntarray.cpp:111; Eigen's `isZero(eps)` tests `|x| ≤ eps` for every coefficient. -/
def jntEqual (a b : List ℝ) (eps : ℝ) : Prop := a.length = b.length ∧ ∀ i, i < a.length → |a.getD i 0 - b.getD i 0| ≤ eps

end KDL
