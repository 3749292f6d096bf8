import Verif.Model.Chain

/-! Lifetime of objects in Python programs that use the bindings, `/repo/python_orocos_kdl/PyKDL/{kinfam,dynamics}.cpp`.

A Python variable refers to an object; CPython destroys an object when the last reference to it goes.  A solver holds C++
references to the objects given to its constructor, which Python does not know of: none of the constructors is bound with
`py::keep_alive` (kinfam.cpp:358–515, dynamics.cpp:89).  The references between objects form no cycles, so an object lives exactly
as long as a variable leads to it.  What the solvers compute is modelled elsewhere; here a call reads the objects the solver
refers to. -/

namespace KDL.PyLife

/-- The bound solver classes. -/
inductive Cls
  | ChainFkSolverPos_recursive
  | ChainFkSolverVel_recursive
  | ChainIkSolverPos_NR
  | ChainIkSolverPos_NR_JL
  | ChainIkSolverVel_pinv
  | ChainIkSolverVel_wdls
  | ChainIkSolverPos_LMA
  | ChainIkSolverVel_pinv_nso
  | ChainIkSolverVel_pinv_givens
  | ChainJntToJacSolver
  | ChainJntToJacDotSolver
  | ChainIdSolver_RNE
  | ChainDynParam
  deriving DecidableEq

/-- What a constructor asks for. -/
inductive Arg
  | chain
  /-- `ChainFkSolverPos&` -/
  | fkPos
  /-- `ChainIkSolverVel&` -/
  | ikVel
  deriving DecidableEq

/-- The arguments that the object keeps as C++ references: `const Chain& chain` in every class (chainfksolverpos_recursive.hpp:48,
chainfksolvervel_recursive.hpp:47, chainiksolvervel_pinv.hpp:101, …); `chain`, `fksolver` and `iksolver` in
chainiksolverpos_nr.hpp:82–86 and chainiksolverpos_nr_jl.hpp:112–117.  Numbers and joint arrays are copied. -/
def Cls.args : Cls → List Arg
  | .ChainIkSolverPos_NR => [.chain, .fkPos, .ikVel]
  | .ChainIkSolverPos_NR_JL => [.chain, .fkPos, .ikVel]
  | _ => [.chain]

/-- Base classes, kinfam.cpp:357–463. -/
def Cls.isFkPos : Cls → Bool
  | .ChainFkSolverPos_recursive => true
  | _ => false
def Cls.isIkVel : Cls → Bool
  | .ChainIkSolverVel_pinv => true
  | .ChainIkSolverVel_wdls => true
  | .ChainIkSolverVel_pinv_nso => true
  | .ChainIkSolverVel_pinv_givens => true
  | _ => false

/-- Objects behind Python variables. -/
inductive Obj
  | chain (c : Chain)
  | segment (s : Segment)
  /-- a solver and the addresses of the C++ references it holds -/
  | solver (k : Cls) (refs : List ℕ)

/-- pybind11's check of an argument. -/
def Arg.accepts : Arg → Obj → Bool
  | .chain, .chain _ => true
  | .fkPos, .solver k _ => k.isFkPos
  | .ikVel, .solver k _ => k.isIkVel
  | _, _ => false

/-- All objects created so far (also those destroyed since), and the variables. -/
structure St where
  objs : ℕ → Option Obj
  next : ℕ
  vars : ℕ → Option ℕ

def St.empty : St := ⟨fun _ => none, 0, fun _ => none⟩

/-- The C++ references an object holds. -/
def St.refs (s : St) (x : ℕ) : List ℕ :=
  match s.objs x with
  | some (.solver _ r) => r
  | _ => []

/-- `x` refers to `y`, directly or through other solvers. -/
inductive St.Reach (s : St) : ℕ → ℕ → Prop
  | refl (x) : St.Reach s x x
  | step {x y z} : y ∈ s.refs x → St.Reach s y z → St.Reach s x z

/-- The object lives.  `keep`: whether the constructors are bound with `py::keep_alive` for the arguments they refer to. -/
def St.Alive (keep : Bool) (s : St) (x : ℕ) : Prop :=
  ∃ v r, s.vars v = some r ∧ (r = x ∨ keep = true ∧ s.Reach r x)

/-- `v = <new object>`. -/
def St.new (s : St) (v : ℕ) (o : Obj) : St :=
  ⟨fun x => if x = s.next then some o else s.objs x, s.next + 1, fun w => if w = v then some s.next else s.vars w⟩
/-- Change of the object that a variable refers to. -/
def St.put (s : St) (x : ℕ) (o : Obj) : St := { s with objs := fun y => if y = x then some o else s.objs y }
/-- The object that a variable refers to. -/
def St.obj (s : St) (v : ℕ) : Option Obj := (s.vars v).bind s.objs

/-- Statements of a Python program. -/
inductive Stmt
  /-- `v = Chain()` -/
  | chain (v : ℕ)
  /-- `v = Segment(…)` -/
  | segment (v : ℕ) (g : Segment)
  /-- `v.addSegment(w)` -/
  | addSegment (v w : ℕ)
  /-- `v = w.getSegment(i)` -/
  | getSegment (v w : ℕ) (i : ℕ)
  /-- `v.setInertia(I)` -/
  | setInertia (v : ℕ) (I : RBI)
  /-- `v = K(args…)` -/
  | solver (v : ℕ) (k : Cls) (args : List ℕ)
  /-- `v = w` -/
  | alias (v w : ℕ)
  /-- `del v` -/
  | del (v : ℕ)
  /-- a call that computes, `v.JntToCart(…)` and so on -/
  | call (v : ℕ)

/-- The addresses of the arguments, if they have the types asked for. -/
def St.bind (s : St) : List Arg → List ℕ → Option (List ℕ)
  | [], [] => some []
  | a :: as, v :: vs => do
    let x ← s.vars v
    let o ← s.objs x
    if a.accepts o then do
      let xs ← s.bind as vs
      some (x :: xs)
    else none
  | _, _ => none

open Classical in
/-- Effect of a statement; `none` is undefined behaviour in C++.  A statement that raises a Python exception (an unknown variable, an
argument of another type) changes nothing.  `getSegment`: kinfam.cpp:176 binds the overload that returns `Segment&` with the default
policy, by which pybind11 copies what a returned reference refers to.  `setInertia`: segment.hpp:138. -/
noncomputable def St.step (keep : Bool) (s : St) : Stmt → Option St
  | .chain v => some (s.new v (.chain Chain.empty))
  | .segment v g => some (s.new v (.segment g))
  | .addSegment v w =>
    match s.vars v, s.obj v, s.obj w with
    | some x, some (.chain c), some (.segment g) => some (s.put x (.chain (c.addSegment g)))
    | _, _, _ => some s
  | .getSegment v w i =>
    match s.obj w with
    | some (.chain c) =>
      match c.getSegment i with
      | some g => some (s.new v (.segment g))
      | none => none
    | _ => some s
  | .setInertia v I =>
    match s.vars v, s.obj v with
    | some x, some (.segment g) => some (s.put x (.segment { g with I := I }))
    | _, _ => some s
  | .solver v k args =>
    match s.bind k.args args with
    | some refs => some (s.new v (.solver k refs))
    | none => some s
  | .alias v w =>
    match s.vars w with
    | some x => some { s with vars := fun u => if u = v then some x else s.vars u }
    | none => some s
  | .del v => some { s with vars := fun u => if u = v then none else s.vars u }
  | .call v =>
    match s.vars v with
    | some x => if ∀ y, s.Reach x y → s.Alive keep y then some s else none
    | none => some s

/-- A program. -/
noncomputable def St.run (keep : Bool) (s : St) : List Stmt → Option St
  | [] => some s
  | o :: os => do
    let s ← s.step keep o
    s.run keep os

/-- The bindings as they are: without `py::keep_alive`. -/
noncomputable def run (os : List Stmt) : Option St := St.empty.run false os

end KDL.PyLife
