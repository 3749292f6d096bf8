import Verif.Model.InPlace
import Verif.Model.TreeDynamics

/-!
# Model of `treeidsolver_recursive_newton_euler.cpp` on arrays that may be the same object

Citations are relative to `/repo/orocos_kdl/src`.  As in `Model/InPlace.lean`: the `JntArray` arguments are addresses, and
every read takes what the array holds at that moment.  In contrast to the chain solver the reads of one branch come after
the torques of the branches before it have been written.
-/

noncomputable section
namespace KDL

/-- What a step of the recursion changes: the solver's maps and the arrays. -/
structure RneStAt where
  aux : String → Option TreeAux
  h : JntStore

/-- Outcome of a step: undefined behaviour, `std::out_of_range` (with the arrays as they are then), normal return. -/
inductive RneOutAt where
  | ub
  | thrown (h : JntStore)
  | ok (st : RneStAt)

/-- Continue with the next child only after a normal return, treeidsolver_recursive_newton_euler.cpp:122–125. -/
def RneOutAt.next (o : RneOutAt) (step : RneStAt → RneOutAt) : RneOutAt :=
  match o with
  | .ok st => step st
  | o => o

/-- Lines 131–132 of treeidsolver_recursive_newton_euler.cpp: `torques(j)` is assigned, then `q_dotdot(j)` is read, and the
product with the joint inertia is added to `torques(j)`. -/
def torqueAt (qdd tau j : ℕ) (Sf inertia : ℝ) (h : JntStore) : Option JntStore :=
  if j < (h tau).length then
    let h1 := h.put tau ((h tau).set j Sf)
    match (h1 qdd)[j]?, (h1 tau)[j]? with
    | some c, some old => some (h1.put tau ((h1 tau).set j (old + inertia * c)))
    | _, _ => none
  else none

/-- `TreeIdSolver_RNE::rne_step` after the children, treeidsolver_recursive_newton_euler.cpp:130–137. -/
def rneAfterAt (t : Tree) (qdd tau : ℕ) (n p : String) (e : TreeElem) (st : RneStAt) : RneOutAt :=
  match st.aux n with
  | none => .thrown st.h
  | some x =>
    match (if e.moving then torqueAt qdd tau e.q_nr (x.S.dot x.f) e.segment.joint.inertia st.h else some st.h) with
    | none => .ub
    | some h' =>
      if n ≠ t.root_name then
        match st.aux p with
        | none => .thrown h'
        | some y => .ok ⟨auxSet st.aux p { y with f := y.f + x.X * x.f }, h'⟩
      else .ok ⟨st.aux, h'⟩

/-- `TreeIdSolver_RNE::rne_step`, treeidsolver_recursive_newton_euler.cpp:78, with the arrays `q`, `q_dot` and `q_dotdot` read
at the time of the step (lines 86–88).  The counter bounds the depth of the recursion. -/
def rneStepAt (t : Tree) (strict : Bool) (ag : Twist) (q qd qdd tau : ℕ) (fext : String → Option Wrench) :
    ℕ → String → RneStAt → RneOutAt
  | 0, _, _ => .ub
  | fuel + 1, n, st =>
    match t.find n with
    | none => .ub
    | some e =>
      match parentName strict e with
      | none => .ub
      | some p =>
        match (if e.moving then do
            let x ← (st.h q)[e.q_nr]?
            let y ← (st.h qd)[e.q_nr]?
            let z ← (st.h qdd)[e.q_nr]?
            some (x, y, z)
          else some (0, 0, 0) : Option (ℝ × ℝ × ℝ)) with
        | none => .ub
        | some (q_, qdot_, qdotdot_) =>
          match st.aux n with
          | none => .thrown st.h
          | some _ =>
            let X := e.segment.pose q_
            let vj := X.M.invTwist (e.segment.twist q_ qdot_)
            let S := X.M.invTwist (e.segment.twist q_ 1)
            match (if n = t.root_name then some (vj, X.invTwist ag + qdotdot_ • S + vj * vj)
              else
                match st.aux p with
                | none => none
                | some y =>
                  let v := X.invTwist y.v + vj
                  some (v, X.invTwist y.a + qdotdot_ • S + v * vj) : Option (Twist × Twist)) with
            | none => .thrown st.h
            | some (v, a) =>
              let f0 := e.segment.I * a + v * (e.segment.I * v)
              let f := match fext n with | none => f0 | some w => f0 - w
              (e.children.foldl (fun (o : RneOutAt) c => o.next (rneStepAt t strict ag q qd qdd tau fext fuel c))
                (RneOutAt.ok ⟨auxSet st.aux n ⟨X, S, v, a, f⟩, st.h⟩)).next (rneAfterAt t qdd tau n p e)

/-- `TreeIdSolver_RNE::CartToJnt`, treeidsolver_recursive_newton_euler.cpp:53, on the objects `q`, `q_dot`, `q_dotdot` and
`torques` (address `tau`). -/
def TreeRne.cartToJntAt (s : TreeRne) (t : Tree) (strict : Bool) (q qd qdd : ℕ) (fext : String → Option Wrench)
    (tau : ℕ) (h : JntStore) : Option (Int × JntStore) :=
  if s.nj ≠ t.nrOfJoints ∨ s.ns ≠ t.nrOfSegments then some (E_NOT_UP_TO_DATE, h)
  else if (h q).length ≠ s.nj ∨ (h qd).length ≠ s.nj ∨ (h qdd).length ≠ s.nj ∨ (h tau).length ≠ s.nj then
    some (E_SIZE_MISMATCH, h)
  else
    match rneStepAt t strict s.ag q qd qdd tau fext (t.segments.length + 1) t.root_name ⟨s.aux, h⟩ with
    | .ub => none
    | .thrown h' => some (E_NOT_UP_TO_DATE, h')
    | .ok st => some (E_NOERROR, st.h)

end KDL
