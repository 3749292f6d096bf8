import Verif.Model.Robots
import Verif.Model.ChainKin
import Verif.Model.IkPos
import Verif.Model.WrenchEstimator

/-!
# The programs of the models directory: kukaLWRtestHCG.cpp, kukaLWRtestDHnew.cpp and puma560test.cpp

A file is a sequence of words, each of which is a number or not (`bad`: a word that does not begin like a number); line
breaks are blanks like others, as for `operator>>`.  The conversion of words into numbers is not modelled.  `none` is
undefined behaviour; `int` is taken to have 32 bits.
-/

noncomputable section
namespace KDL.RobotPrograms

/-- A word of the input. -/
inductive Tok where
  | num (x : ℝ)
  | bad

/-- An input stream: what is left of it, whether blanks follow the last word, and the flags `eofbit`, `failbit`. -/
structure IStream where
  toks : List Tok
  trailing : Bool
  eof : Bool := false
  fail : Bool := false

/-- `is >> x` for a `double x` that holds `old`.  A stream that is not good is left alone, so is `x`; at the end of the
input both flags are set and `x` is left alone; a number that runs to the end of the input sets `eofbit`; a word that
is no number sets `failbit` and, since C++11, stores zero. -/
def IStream.read (s : IStream) (old : ℝ) : IStream × ℝ :=
  if s.eof ∨ s.fail then ({ s with fail := true }, old)
  else
    match s.toks with
    | [] => ({ s with eof := true, fail := true }, old)
    | .num x :: ts => ({ s with toks := ts, eof := ts.isEmpty && !s.trailing }, x)
    | .bad :: _ => ({ s with fail := true }, 0)

/-- `is >> q(0) >> q(1) >> …`, kukaLWRtestHCG.cpp:123. -/
def IStream.readRow (s : IStream) : List ℝ → IStream × List ℝ
  | [] => (s, [])
  | x :: xs =>
    let a := s.read x
    let r := a.1.readRow xs
    (r.1, a.2 :: r.2)

/-- The largest `int`. -/
def intMax : ℤ := 2 ^ 31 - 1

/-- The loop over the lines of a file, kukaLWRtestHCG.cpp:120–131 (also 149–160, 178–189, and the same lines of
kukaLWRtestDHnew.cpp): the joint array and the lines printed by `outputLine`.  `counter++` overflows at `intMax`. -/
def readLoop (linenr : ℤ) (s : IStream) (q : List ℝ) (counter : ℤ) : Option (List ℝ × List (List ℝ)) :=
  if s.eof then some (q, [])
  else if counter ≥ intMax then none
  else if counter + 1 = linenr then some ((s.readRow q).2, [(s.readRow q).2])
  else readLoop linenr (s.readRow q).1 (s.readRow q).2 (counter + 1)
termination_by (intMax - counter).toNat
decreasing_by omega

/-- What is typed in as line number: nothing (end of the input), something that is no number, or a number. -/
inductive Answer where
  | nothing
  | bad
  | num (n : ℤ)

/-- `std::cin >> linenr`, kukaLWRtestHCG.cpp:101, for the variable `linenum` (line 37), which has no value before. -/
def Answer.value : Answer → Option ℤ
  | .nothing => none
  | .bad => some 0
  | .num n => some n

/-- The three files; `none` is a file that cannot be opened. -/
structure Files where
  q : Option IStream
  qdot : Option IStream
  qdotdot : Option IStream

/-- Result of `getInputs`. -/
structure Inputs where
  q : List ℝ
  qdot : List ℝ
  qdotdot : List ℝ
  linenr : ℤ
  printed : List (List ℝ)

/-- Opening a file and reading it, kukaLWRtestHCG.cpp:109–132.  `exit(1)` is `.error 1`. -/
def readFile (linenr : ℤ) (f : Option IStream) (q : List ℝ) : Option (Except Int (List ℝ × List (List ℝ))) :=
  match f with
  | none => some (.error 1)
  | some s => (readLoop linenr s q 0).map .ok

/-- `getInputs`, kukaLWRtestHCG.cpp:88–193.  A line number without a value is read by the first comparison. -/
def getInputs (a : Answer) (f : Files) (q qdot qdotdot : List ℝ) : Option (Except Int Inputs) :=
  match f.q with
  | none => some (.error 1)
  | some _ =>
    match a.value with
    | none => none
    | some n =>
      match readFile n f.q q with
      | none => none
      | some (.error e) => some (.error e)
      | some (.ok x) =>
        match readFile n f.qdot qdot with
        | none => none
        | some (.error e) => some (.error e)
        | some (.ok y) =>
          match readFile n f.qdotdot qdotdot with
          | none => none
          | some (.error e) => some (.error e)
          | some (.ok z) => some (.ok ⟨x.1, y.1, z.1, n, x.2 ++ y.2 ++ z.2⟩)

/-- What the program computes. -/
structure Torques where
  pose : Frame
  tau : List ℝ
  H : JMat
  C : List ℝ
  G : List ℝ
  tauHCG : List ℝ

/-- `Vector grav(0.0,0.0,-9.81)`, kukaLWRtestHCG.cpp:32. -/
def grav : Vec := ⟨0, 0, -9.81⟩

/-- `Multiply(JntSpaceInertiaMatrix,JntArray,JntArray)`, jntspaceinertiamatrix.cpp:99; Eigen requires equal sizes. -/
def multiplyH (H : JMat) (v : List ℝ) : Option (List ℝ) := if H.n = v.length then some (EstState.mulVec H v) else none

/-- kukaLWRtestHCG.cpp:24–60: the codes returned by the solvers are not looked at. -/
def torques (c : Chain) (q qd qdd : List ℝ) : Option Torques := do
  let n := c.nrOfJoints
  let z : List ℝ := List.replicate n 0
  let p ← fkPos c q (-1)
  let t ← idRne c n c.nrOfSegments grav q qd qdd (List.replicate c.nrOfSegments 0) z
  let h ← (DynState.new c grav).mass c q (.zero n)
  let k ← (DynState.new c grav).coriolis c q qd z
  let g ← (DynState.new c grav).gravity c q z
  let a ← multiplyH h.2 qdd
  let b ← jntAdd a k.2
  let d ← jntAdd b g.2
  return ⟨p.2, t.2, h.2, k.2, g.2, d⟩

/-- What a run leaves behind: the results, the lines printed by `getInputs`, and what is appended to the two files. -/
structure Result where
  torques : Torques
  printed : List (List ℝ)
  poseFile : ℤ × Frame
  tauFile : ℤ × List ℝ

/-- `main`, kukaLWRtestHCG.cpp:20–84.  `canPose`, `canTau`: whether the output files can be opened (if only the second cannot,
the pose has been appended already; this is not recorded). -/
def kukaMain (a : Answer) (f : Files) (canPose canTau : Bool) : Option (Except Int Result) :=
  let z : List ℝ := List.replicate kukaLWR.nrOfJoints 0
  match getInputs a f z z z with
  | none => none
  | some (.error e) => some (.error e)
  | some (.ok i) =>
    match torques kukaLWR i.q i.qdot i.qdotdot with
    | none => none
    | some t =>
      if !canPose then some (.error 1)
      else if !canTau then some (.error 1)
      else some (.ok ⟨t, i.printed, (i.linenr, t.pose), (i.linenr, t.tau)⟩)

/-- The loop that asks for the joint values, puma560test.cpp:25–40, for the remaining joints: the stream and the
positions, velocities and accelerations. -/
def ask (s : IStream) : ℕ → IStream × List ℝ × List ℝ × List ℝ
  | 0 => (s, [], [], [])
  | n + 1 =>
    let a := s.read 0
    let b := a.1.read 0
    let c := b.1.read 0
    let r := ask c.1 n
    (r.1, a.2 :: r.2.1, b.2 :: r.2.2.1, c.2 :: r.2.2.2)

/-- `main`, puma560test.cpp:11–67: the pose and the torques that are printed. -/
def pumaMain (s : IStream) : Option (Frame × List ℝ) := do
  let r := ask s puma560.nrOfJoints
  let p ← fkPos puma560 r.2.1 (-1)
  let t ← idRne puma560 puma560.nrOfJoints puma560.nrOfSegments grav r.2.1 r.2.2.1 r.2.2.2
    (List.replicate puma560.nrOfSegments 0) (List.replicate puma560.nrOfJoints 0)
  return (p.2, t.2)

end KDL.RobotPrograms
