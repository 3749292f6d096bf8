import Verif.Model.Tree
import Verif.Model.Dynamics

/-!
# Model of `treeidsolver_recursive_newton_euler.cpp`

Citations are relative to `/repo/orocos_kdl/src`.  The five maps `X`, `S`, `v`, `a`, `f` of the solver
(treeidsolver_recursive_newton_euler.hpp) are filled together by `initAuxVariables` and never erased from, so they always
have the same keys; they are one map from names to `TreeAux`.  `map::at` on a missing key is the outcome `thrown`.
-/

noncomputable section
namespace KDL

/-- The entries of `X`, `S`, `v`, `a`, `f` for one segment, treeidsolver_recursive_newton_euler.hpp:75–79. -/
structure TreeAux where
  X : Frame
  S : Twist
  v : Twist
  a : Twist
  f : Wrench

/-- What a step of the recursion changes: the solver's maps and the argument `torques`. -/
structure RneSt where
  aux : String → Option TreeAux
  torques : List ℝ

/-- Outcome of a step: undefined behaviour, `std::out_of_range` (with `torques` as written so far), normal return. -/
inductive RneOut where
  | ub
  | thrown (torques : List ℝ)
  | ok (st : RneSt)

/-- Replace the entry of one key. -/
def auxSet (m : String → Option TreeAux) (n : String) (x : TreeAux) : String → Option TreeAux :=
  fun k => if k = n then some x else m k

/-- `GetTreeElementParent(...)->first`, treeidsolver_recursive_newton_euler.cpp:81: the reference is also formed for the
root, whose parent iterator is singular (tree.hpp:90).  `strict`: that is undefined behaviour; otherwise it is harmless
because the reference is not used for the root. -/
def parentName (strict : Bool) (e : TreeElem) : Option String :=
  match e.parent with
  | some p => some p
  | none => if strict then none else some ""

/-- Continue with the next child only after a normal return, treeidsolver_recursive_newton_euler.cpp:122–125. -/
def RneOut.next (o : RneOut) (step : RneSt → RneOut) : RneOut :=
  match o with
  | .ok st => step st
  | o => o

/-- `TreeIdSolver_RNE::rne_step` after the children, treeidsolver_recursive_newton_euler.cpp:130–137. -/
def rneAfter (t : Tree) (qdd : List ℝ) (n p : String) (e : TreeElem) (st : RneSt) : RneOut :=
  match st.aux n with
  | none => .thrown st.torques
  | some x =>
    match (if e.moving then
        (match qdd[e.q_nr]? with
        | none => none
        | some c =>
          if e.q_nr < st.torques.length then some (st.torques.set e.q_nr (x.S.dot x.f + e.segment.joint.inertia * c))
          else none)
      else some st.torques : Option (List ℝ)) with
    | none => .ub
    | some τ =>
      if n ≠ t.root_name then
        match st.aux p with
        | none => .thrown τ
        | some y => .ok ⟨auxSet st.aux p { y with f := y.f + x.X * x.f }, τ⟩
      else .ok ⟨st.aux, τ⟩

/-- `TreeIdSolver_RNE::rne_step`, treeidsolver_recursive_newton_euler.cpp:78.  The counter bounds the depth of the
recursion (shown never to run out). -/
def rneStep (t : Tree) (strict : Bool) (ag : Twist) (q qd qdd : List ℝ) (fext : String → Option Wrench) :
    ℕ → String → RneSt → RneOut
  | 0, _, _ => .ub
  | fuel + 1, n, st =>
    match t.find n with
    | none => .ub
    | some e =>
      match parentName strict e with
      | none => .ub
      | some p =>
        match (if e.moving then do
            let x ← q[e.q_nr]?
            let y ← qd[e.q_nr]?
            let z ← qdd[e.q_nr]?
            some (x, y, z)
          else some (0, 0, 0) : Option (ℝ × ℝ × ℝ)) with
        | none => .ub
        | some (q_, qdot_, qdotdot_) =>
          match st.aux n with
          | none => .thrown st.torques
          | some _ =>
            let X := e.segment.pose q_
            let vj := X.M.invTwist (e.segment.twist q_ qdot_)
            let S := X.M.invTwist (e.segment.twist q_ 1)
            match (if n = t.root_name then some (vj, X.invTwist ag + qdotdot_ • S + vj * vj)
              else
                match st.aux p with
                | none => none
                | some y =>
                  let v := X.invTwist y.v + vj
                  some (v, X.invTwist y.a + qdotdot_ • S + v * vj) : Option (Twist × Twist)) with
            | none => .thrown st.torques
            | some (v, a) =>
              let f0 := e.segment.I * a + v * (e.segment.I * v)
              let f := match fext n with | none => f0 | some w => f0 - w
              (e.children.foldl (fun (o : RneOut) c => o.next (rneStep t strict ag q qd qdd fext fuel c))
                (RneOut.ok ⟨auxSet st.aux n ⟨X, S, v, a, f⟩, st.torques⟩)).next (rneAfter t qdd n p e)

/-- Members of `TreeIdSolver_RNE` (treeidsolver_recursive_newton_euler.hpp:72–80) without the referenced tree. -/
structure TreeRne where
  nj : ℕ
  ns : ℕ
  ag : Twist
  aux : String → Option TreeAux

namespace TreeRne
/-- `initAuxVariables`, treeidsolver_recursive_newton_euler.cpp:42: entries of keys that are no segment stay. -/
def initAux (t : Tree) (m : String → Option TreeAux) : String → Option TreeAux :=
  fun n => match t.find n with
    | some _ => some ⟨1, 0, 0, 0, 0⟩
    | none => m n
/-- Constructor, treeidsolver_recursive_newton_euler.cpp:28. -/
def new (t : Tree) (grav : Vec) : TreeRne := ⟨t.nrOfJoints, t.nrOfSegments, -⟨grav, 0⟩, initAux t fun _ => none⟩
/-- `updateInternalDataStructures`, treeidsolver_recursive_newton_euler.cpp:35. -/
def update (s : TreeRne) (t : Tree) : TreeRne := ⟨t.nrOfJoints, t.nrOfSegments, s.ag, initAux t s.aux⟩

/-- `TreeIdSolver_RNE::CartToJnt`, treeidsolver_recursive_newton_euler.cpp:53, on the current state `t` of the referenced
tree.  Result: return code and `torques`; `none` = undefined behaviour.  The values the call leaves in the maps are not
kept (every entry is written before it is read). -/
def cartToJnt (s : TreeRne) (t : Tree) (strict : Bool) (q qd qdd : List ℝ) (fext : String → Option Wrench)
    (τ : List ℝ) : Option (Int × List ℝ) :=
  if s.nj ≠ t.nrOfJoints ∨ s.ns ≠ t.nrOfSegments then some (E_NOT_UP_TO_DATE, τ)
  else if q.length ≠ s.nj ∨ qd.length ≠ s.nj ∨ qdd.length ≠ s.nj ∨ τ.length ≠ s.nj then some (E_SIZE_MISMATCH, τ)
  else
    match rneStep t strict s.ag q qd qdd fext (t.segments.length + 1) t.root_name ⟨s.aux, τ⟩ with
    | .ub => none
    | .thrown τ' => some (E_NOT_UP_TO_DATE, τ')
    | .ok st => some (E_NOERROR, st.torques)
end TreeRne

end KDL
