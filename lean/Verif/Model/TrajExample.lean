import Verif.Model.TextIo
import Verif.Model.Ownership

/-!
# The program `examples/trajectory_example.cpp`

Decimal literals are the decimal numbers they denote and `PI`, `PI_2` are `π`, `π/2`; everything else is computed with real
numbers as in the rest of the model.
-/

noncomputable section
namespace KDL.TrajExample

/-- The frames given to `Add`, trajectory_example.cpp:46–51. -/
def waypoints : List Frame :=
  [⟨Rot.rpy Real.pi 0 0, ⟨-1, 0, 0⟩⟩, ⟨Rot.rpy (Real.pi / 2) 0 0, ⟨-0.5, 0, 0⟩⟩, ⟨Rot.rpy 0 0 0, ⟨0, 0, 0⟩⟩,
    ⟨Rot.rpy 0.7 0.7 0.7, ⟨1, 1, 1⟩⟩, ⟨Rot.rpy 0 0.7 0, ⟨1.5, 0.3, 0⟩⟩, ⟨Rot.rpy 0.7 0.7 0, ⟨1, 1, 0⟩⟩]

/-- The calls of `Add`: the segments created and the object, or what was thrown. -/
def addPoints : List Frame → List (PathLine ⊕ PathCircle) → RoundedComposite →
    PathRes (List (PathLine ⊕ PathCircle) × RoundedComposite)
  | [], parts, r => .ok (parts, r)
  | F :: Fs, parts, r =>
    match r.add F with
    | (.ok _, r') => addPoints Fs (parts ++ TextIo.addedParts r F) r'
    | (.tooSmall, _) => .tooSmall
    | (.noPlane, _) => .noPlane
    | (.notFeasible k, _) => .notFeasible k
    | (.nan, _) => .nan

/-- `path` after `Finish()`, trajectory_example.cpp:36–54: its segments and the object. -/
def buildPath (points : List Frame) : PathRes (List (PathLine ⊕ PathCircle) × RoundedComposite) :=
  match RoundedComposite.new 0.2 0.01 with
  | .ok r =>
    match addPoints points [] r with
    | .ok (parts, r) =>
      .ok (if r.nrofpoints ≥ 1 then parts ++ [.inl (PathLine.ofFrames r.F_base_start r.F_base_via r.eqradius)] else parts, r.finish)
    | .tooSmall => .tooSmall
    | .noPlane => .noPlane
    | .notFeasible k => .notFeasible k
    | .nan => .nan
  | .tooSmall => .tooSmall
  | .noPlane => .noPlane
  | .notFeasible k => .notFeasible k
  | .nan => .nan

/-- One line of `trajectory.dat`, trajectory_example.cpp:73–76: the sixteen numbers in the order in which they are written. -/
def row (F : Frame) : List ℝ := (List.finRange 4).flatMap fun i => (List.finRange 4).map fun j => F.entry i j

/-- How a loop or the program ends. -/
inductive Ended (α : Type)
  | value (a : α)
  /-- a failed assertion or an access out of bounds -/
  | undefined
  /-- the bound on the number of rounds of the model was too small -/
  | unfinished

open Classical in
/-- The loop trajectory_example.cpp:70–81; `Pos` is trajectory_segment.cpp:66.  The path remembers the segment last used,
hence the second component.  The first argument bounds the number of rounds (the program has no bound). -/
def sample (q : Quad3) (dt : ℝ) : ℕ → ℝ → PathComposite → List (List ℝ) → Ended (List (List ℝ) × PathComposite)
  | 0, _, _, _ => .unfinished
  | n + 1, t, c, file =>
    if t ≤ q.duration then
      match c.pos (q.pos t) with
      | none => .undefined
      | some (F, c') => sample q dt n (t + dt) c' (file ++ [row F])
    else .value (file, c)

/-- What is printed about a segment: start, end, `true` for a circle. -/
structure Info where
  starts : ℝ
  ends : ℝ
  circle : Bool

/-- `getIdentifier` of a segment compared with `ID_CIRCLE`, path_line.hpp:128, path_circle.hpp:107. -/
def isCircle : PathLine ⊕ PathCircle → Bool
  | .inl _ => false
  | .inr _ => true

/-- One round of the loop trajectory_example.cpp:85–107; `none`: an assertion of `GetSegment` or `GetLengthToEndOfSegment`
fails. -/
def info (parts : List (PathLine ⊕ PathCircle)) (c : PathComposite) (i : ℕ) : Option Info := do
  let a ← if i = 0 then some 0 else c.lengthToEnd (i - 1)
  let b ← c.lengthToEnd i
  let p ← parts[i]?
  some ⟨a, b, isCircle p⟩

/-- The loop trajectory_example.cpp:85–107. -/
def infos (parts : List (PathLine ⊕ PathCircle)) (c : PathComposite) : List ℕ → List Info → Option (List Info)
  | [], out => some out
  | i :: is, out =>
    match info parts c i with
    | some x => infos parts c is (out ++ [x])
    | none => none

/-- What the program leaves behind. -/
inductive Outcome
  /-- It ends regularly: contents of the file, report on the segments, duration of `traject` and of `ctraject`. -/
  | done (file : List (List ℝ)) (report : List Info) (duration total : ℝ)
  /-- An exception of the library was caught: the message is printed. -/
  | caught
  | undefined
  | unfinished

/-- `main`, trajectory_example.cpp:25–117, without the memory management (see `memory`); `limit` bounds the number of rounds
of the sampling loop. -/
def run (limit : ℕ) : Outcome :=
  match buildPath waypoints with
  | .ok (parts, path) =>
    match (TrapProfile.new 0.5 0.1).setProfile 0 path.comp.pathlength with
    | .ok velpref =>
      let duration := velpref.q.duration
      let total := 0 + duration + (trajStationary 1 ⟨Rot.rpy 0.7 0.7 0, ⟨1, 1, 0⟩⟩).duration
      match sample velpref.q 0.1 limit 0 path.comp [] with
      | .value (file, c) =>
        match infos parts c (List.range c.dv.length) [] with
        | some report => .done file report duration total
        | none => .undefined
      | .undefined => .undefined
      | .unfinished => .unfinished
    | _ => .undefined
  | .nan => .undefined
  | _ => .caught

end KDL.TrajExample

namespace KDL.Mem

/-- The objects created and deleted by trajectory_example.cpp:36–112 when the calls of `Add` from the third on meet the
corners `ks`; `n` bounds the depth of destruction. -/
def trajExample (ord : Bool) (n : ℕ) (ks : List Corner) : M Unit :=
  (alloc .orient).bind fun o => (newRounded false o true).bind fun path =>
    (roundedAdd ord n path .straight).bind fun _ => (roundedAdd ord n path .straight).bind fun _ =>
      (forEach (roundedAdd ord n path) ks).bind fun _ => (roundedFinish ord n path).bind fun _ =>
        (alloc .profile).bind fun velpref => (alloc (.segment path velpref true)).bind fun traject =>
          (alloc (.trajComposite [])).bind fun ctraject => (trajAdd ctraject traject).bind fun _ =>
            (alloc .stationary).bind fun st => (trajAdd ctraject st).bind fun _ => delete n ctraject

end KDL.Mem
