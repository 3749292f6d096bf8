import Verif.Model.ChainKin

/-!
# Model of `tree.cpp`, `treefksolverpos_recursive.cpp`, `treejnttojacsolver.cpp`

Citations are relative to `/repo/orocos_kdl/src`.  The `std::map<std::string,TreeElement>` is a list of elements in order
of insertion, looked up by name; the key of an element is always the name of its segment (tree.cpp:30, :66).  Map
iterators are stable and are modelled by the key.  The default-constructed (singular) parent iterator of the root is
`none`.  Recursions carry a step counter; `none` = step counter exhausted (shown impossible) or undefined behaviour.
-/

noncomputable section
namespace KDL

/-- `TreeElement`, tree.hpp:66. -/
structure TreeElem where
  segment : Segment
  q_nr : ℕ
  parent : Option String
  children : List String

/-- Key of the element. -/
def TreeElem.name (e : TreeElem) : String := e.segment.name
/-- Whether the element's joint is not fixed. -/
def TreeElem.moving (e : TreeElem) : Bool := e.segment.moving

/-- `Segment(name)` with all defaults, segment.hpp:65: fixed joint `NoName`, identity tip frame, zero inertia. -/
def Segment.ofName (name : String) : Segment := ⟨name, ⟨"NoName", .Fixed, 1, 0, 0, 0, 0, 0, 0⟩, RBI.zero, 1⟩

/-- `Tree`, tree.hpp:99. -/
structure Tree where
  segments : List TreeElem
  nrOfJoints : ℕ
  nrOfSegments : ℕ
  root_name : String

namespace Tree
/-- `Tree(root_name)`, tree.cpp:27; root element tree.hpp:90. -/
def new (root : String) : Tree := ⟨[⟨Segment.ofName root, 0, none, []⟩], 0, 0, root⟩
/-- `segments.find(name)` / `getSegment`, tree.hpp:177. -/
def find (t : Tree) (n : String) : Option TreeElem := t.segments.find? fun e => e.name == n

/-- New element list of a successful `addSegment`: tree.cpp:66 (insert), :73 (parent's children list). -/
def attach (l : List TreeElem) (s : Segment) (hook : String) (q_nr : ℕ) : List TreeElem :=
  l.map (fun e => if e.name = hook then { e with children := e.children ++ [s.name] } else e) ++ [⟨s, q_nr, some hook, []⟩]
/-- `Tree::addSegment`, tree.cpp:54. -/
def addSegment (t : Tree) (s : Segment) (hook : String) : Bool × Tree :=
  match t.find hook with
  | none => (false, t)
  | some _ =>
    match t.find s.name with
    | some _ => (false, t)
    | none =>
      (true, ⟨attach t.segments s hook (if s.moving then t.nrOfJoints else 0),
        if s.moving then t.nrOfJoints + 1 else t.nrOfJoints, t.nrOfSegments + 1, t.root_name⟩)
/-- `Tree::addChain`, tree.cpp:82, over the segments of the chain. -/
def addChain (t : Tree) : List Segment → String → Bool × Tree
  | [], _ => (true, t)
  | s :: ss, hook =>
    match t.addSegment s hook with
    | (true, t1) => addChain t1 ss s.name
    | (false, t1) => (false, t1)

/-- `Tree::addTreeRecursive`, tree.cpp:97: loop over the remaining children `cs` of one element of `src`, which is a
different object from `t`; the counter bounds the recursion depth. -/
def addTreeRec (src : Tree) (fuel : ℕ) (cs : List String) (hook : String) (t : Tree) : Option (Bool × Tree) :=
  match cs, fuel with
  | [], _ => some (true, t)
  | _ :: _, 0 => none
  | c :: cs, fuel + 1 =>
    match src.find c with
    | none => none
    | some e =>
      match t.addSegment e.segment hook with
      | (false, t1) => some (false, t1)
      | (true, t1) =>
        match addTreeRec src fuel e.children c t1 with
        | none => none
        | some (false, t2) => some (false, t2)
        | some (true, t2) => addTreeRec src (fuel + 1) cs hook t2
  termination_by (fuel, cs.length)
/-- `Tree::addTree` with an argument that is a different object, tree.cpp:93. -/
def addTree (t src : Tree) (hook : String) : Option (Bool × Tree) :=
  match src.find src.root_name with
  | none => none
  | some r => addTreeRec src (src.segments.length + 1) r.children hook t
/-- Copy constructor, tree.cpp:33 (the result of `addTree` is ignored there). -/
def copy (src : Tree) : Option Tree := (addTree (new src.root_name) src src.root_name).map Prod.snd
/-- `operator=` with another object, tree.cpp:43. -/
def assign (_this src : Tree) : Option Tree := (addTree (new src.root_name) src src.root_name).map Prod.snd
/-- `operator=` with the object itself, tree.cpp:43: everything is cleared before it is read. -/
def assignSelf (t : Tree) : Option Tree :=
  let t' := new t.root_name
  match t'.find t'.root_name with
  | none => none
  | some r => (addTreeRec t' (t'.segments.length + 1) r.children t.root_name t').map Prod.snd
/-- `Tree::getSubTree`, tree.cpp:165 (destination is another object). -/
def getSubTree (t : Tree) (n : String) (dest : Tree) : Option (Bool × Tree) :=
  match t.find n with
  | none => some (false, dest)
  | some r => addTreeRec t (t.segments.length + 1) r.children n (new n)

/-- The walk to the root of tree.cpp:123–126 (:128–131), with the collected keys in reverse order (root first). -/
def walkUp (t : Tree) : ℕ → String → Option (List String)
  | 0, _ => none
  | fuel + 1, n =>
    match t.find n with
    | none => some []
    | some e =>
      if n = t.root_name then some [n]
      else
        match e.parent with
        | none => none
        | some p => (walkUp t fuel p).map (· ++ [n])
/-- Removal of the common part, tree.cpp:136–141 (lists root first). -/
def stripCommon : List String → List String → String → List String × List String × String
  | a :: as, b :: bs, last => if a = b then stripCommon as bs a else (a :: as, b :: bs, last)
  | as, bs, last => (as, bs, last)
/-- One reversed segment, tree.cpp:147–155: `seg` is the element walked over, `dst` the segment it leads to.
`none` = the axis constructor divides by zero. -/
def reverseSegment (seg dst : Segment) : Option Segment :=
  let f_tip := (seg.pose 0).inv
  let jnt := seg.joint
  if jnt.type = .RotX ∨ jnt.type = .RotY ∨ jnt.type = .RotZ ∨ jnt.type = .RotAxis then
    match Joint.mkAxis jnt.name (f_tip * jnt.jointOrigin) (f_tip.M * (-jnt.jointAxis)) .RotAxis 1 0 0 0 0 with
    | .ok j => some (Segment.mk' dst.name j f_tip dst.I)
    | _ => none
  else if jnt.type = .TransX ∨ jnt.type = .TransY ∨ jnt.type = .TransZ ∨ jnt.type = .TransAxis then
    match Joint.mkAxis jnt.name (f_tip * jnt.jointOrigin) (f_tip.M * (-jnt.jointAxis)) .TransAxis 1 0 0 0 0 with
    | .ok j => some (Segment.mk' dst.name j f_tip dst.I)
    | _ => none
  else some (Segment.mk' dst.name jnt f_tip dst.I)
/-- Loop tree.cpp:146–156 over consecutive keys. -/
def addReversed (t : Tree) : List String → Chain → Option Chain
  | a :: b :: rest, c => do
    let ea ← t.find a
    let eb ← t.find b
    let s ← reverseSegment ea.segment eb.segment
    addReversed t (b :: rest) (c.addSegment s)
  | _, c => some c
/-- Loop tree.cpp:159–161. -/
def addForward (t : Tree) : List String → Chain → Option Chain
  | [], c => some c
  | a :: rest, c => do
    let ea ← t.find a
    addForward t rest (c.addSegment ea.segment)
/-- `Tree::getChain`, tree.cpp:116.  Result: return value and new contents of `chain`. -/
def getChain (t : Tree) (chain_root chain_tip : String) : Option (Bool × Chain) := do
  let pr ← t.walkUp (t.segments.length + 1) chain_root
  if pr.head? ≠ some t.root_name then some (false, Chain.empty)
  else do
    let pt ← t.walkUp (t.segments.length + 1) chain_tip
    if pt.head? ≠ some t.root_name then some (false, Chain.empty)
    else do
      let s := stripCommon pr pt t.root_name
      let c1 ← t.addReversed (s.1.reverse ++ [s.2.2]) Chain.empty
      let c2 ← t.addForward s.2.1 c1
      some (true, c2)

/-! ## Tree solvers -/

/-- `TreeFkSolverPos_recursive::recursiveFk`, treefksolverpos_recursive.cpp:48.  `q_in(q_nr)` is unchecked. -/
def recursiveFk (t : Tree) (q : List ℝ) : ℕ → String → Option Frame
  | 0, _ => none
  | fuel + 1, n => do
    let e ← t.find n
    let x ← q[e.q_nr]?
    if n = t.root_name then some (e.segment.pose x)
    else do
      let p ← e.parent
      let P ← recursiveFk t q fuel p
      some (P * e.segment.pose x)
/-- `TreeFkSolverPos_recursive::JntToCart`, treefksolverpos_recursive.cpp:33; the second component is the new `p_out`
(`none` = untouched). -/
def fkTree (t : Tree) (q : List ℝ) (n : String) : Option (Int × Option Frame) :=
  if q.length ≠ t.nrOfJoints then some (-1, none)
  else
    match t.find n with
    | none => some (-2, none)
    | some _ => (recursiveFk t q (t.segments.length + 1) n).map fun F => (0, some F)

/-- Loop treejnttojacsolver.cpp:40–61: current element, `T_total`, `jac`. -/
def treeJacLoop (t : Tree) (q : List ℝ) : ℕ → String → Frame → Jac → Option (Frame × Jac)
  | 0, _, _, _ => none
  | fuel + 1, n, T, J =>
    if n = t.root_name then some (T, J)
    else do
      let e ← t.find n
      let x ← q[e.q_nr]?
      let T_local := e.segment.pose x
      let T' := T_local * T
      let J' ← if e.moving then
          J.setColumn e.q_nr (T'.M.inv * (e.segment.twist x 1).refPoint (T'.p - T_local.p))
        else some J
      let p ← e.parent
      treeJacLoop t q fuel p T' J'
/-- `TreeJntToJacSolver::JntToJac`, treejnttojacsolver.cpp:21. -/
def jacTree (t : Tree) (q : List ℝ) (jac : Jac) (n : String) : Option (Int × Jac) :=
  if q.length ≠ t.nrOfJoints ∨ jac.length ≠ t.nrOfJoints then some (-1, jac)
  else
    match t.find n with
    | none => some (-2, jac)
    | some _ => do
      let r ← treeJacLoop t q (t.segments.length + 1) n 1 jac.setToZero
      some (0, r.2.changeBase r.1.M)

end Tree
end KDL
