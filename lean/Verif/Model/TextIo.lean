import Verif.Model.Path

/-!
# Text input and output

Model of orocos_kdl/src/utilities/utility_io.cxx, utilities/error_stack.cxx, frames_io.cpp, of `Path::Read`,
`VelocityProfile::Read`, `Trajectory::Read`, `RotationalInterpolation::Read` and of the `Write` members.

Characters are those of Lean, a superset of the 8-bit ones.  Extraction and insertion of numbers (`std::num_get`,
`std::num_put`) are parameters (`NumIo`): their behaviour belongs to the standard library.
-/

noncomputable section

namespace KDL.TextIo

/-! ## Streams -/

/-- Input stream: the characters not read yet, `eofbit`, and `failbit` or `badbit`. -/
structure IStream where
  rest : List Char
  eof : Bool
  fail : Bool

/-- Stream together with the static stack of utilities/error_stack.cxx:30 (top first). -/
structure IoState where
  is : IStream
  trace : List String

/-- Exceptions of utilities/error.h:70–240. -/
inductive IoErr
  /-- `Error_BasicIO_File` -/
  | file
  /-- `Error_BasicIO_Exp_Delim` -/
  | expDelim
  /-- `Error_BasicIO_Not_A_Space` -/
  | notASpace
  /-- `Error_BasicIO_Unexpected` -/
  | unexpected
  /-- `Error_Frame_Vector_Unexpected_id` -/
  | vectorId
  /-- `Error_Frame_Rotation_Unexpected_id` -/
  | rotationId
  /-- `Error_Frame_Frame_Unexpected_id` -/
  | frameId
  /-- `Error_MotionIO_Unexpected_Traj` -/
  | unexpectedTraj
  /-- `Error_MotionIO_Unexpected_MotProf` -/
  | unexpectedProf
  /-- `Error_Not_Implemented` -/
  | notImplemented
  /-- an exception thrown by the constructor of a path -/
  | planning
  deriving DecidableEq

/-- Outcome of a reading function. -/
inductive Out (α : Type)
  | ok (a : α) (s : IoState)
  /-- an exception, and the state it leaves -/
  | exc (e : IoErr) (s : IoState)
  /-- undefined behaviour: a write outside `storage`, `pop` of an empty stack -/
  | ub
  /-- a branch of the program that is not modelled -/
  | unmodelled

/-- A reading function. -/
def Rd (α : Type) := IoState → Out α

namespace Rd
/-- sequential composition -/
protected def bind {α β : Type} (m : Rd α) (f : α → Rd β) : Rd β := fun s =>
  match m s with
  | .ok a s' => f a s'
  | .exc e s' => .exc e s'
  | .ub => .ub
  | .unmodelled => .unmodelled
instance : Monad Rd where
  pure a := fun s => .ok a s
  bind := Rd.bind
end Rd

/-- `throw`. -/
def raise {α : Type} (e : IoErr) : Rd α := fun s => .exc e s
/-- A branch of the program that is not modelled. -/
def notModelled {α : Type} : Rd α := fun _ => .unmodelled

/-- `std::istream::get()`; `none` is `EOF`. -/
def getc : Rd (Option Char) := fun s =>
  if s.is.eof || s.is.fail then .ok none { s with is := { s.is with fail := true } }
  else match s.is.rest with
    | [] => .ok none { s with is := ⟨[], true, true⟩ }
    | c :: r => .ok (some c) { s with is := { s.is with rest := r } }

/-- `std::istream::putback(ch)`: clears `eofbit` first (C++11); does nothing more on a failed stream.  In the program an
`EOF` is put back only on a failed stream. -/
def putback (ch : Option Char) : Rd Unit := fun s =>
  if s.is.fail then .ok () { s with is := { s.is with eof := false } }
  else match ch with
    | some c => .ok () { s with is := ⟨c :: s.is.rest, false, false⟩ }
    | none => .ok () { s with is := { s.is with eof := false } }

/-- `_check_istream`, utilities/utility_io.cxx:32 (a stream at its end is not good). -/
def checkStream : Rd Unit := fun s => if s.is.eof then .exc .file s else .ok () s

/-- The characters skipped by `_EatSpace`, utilities/utility_io.cxx:99. -/
def blank (c : Char) : Bool := c = ' ' || c = '\n' || c = '\t'

/-- Loop of `_EatUntilEndOfLine`, utilities/utility_io.cxx:44–48, on a good stream: the characters after the newline and
the new count.  `none`: the stream ended, an exception. -/
def skipLine : List Char → ℤ → Option (List Char × ℤ)
  | [], _ => none
  | c :: r, n => if c = '\n' then some (r, n + 1) else skipLine r (n + 1)

/-- Loop of `_EatUntilEndOfComment`, utilities/utility_io.cxx:60–68, on a good stream; `prev`: the character before is
`*`. -/
def skipComment : List Char → Bool → ℤ → Option (List Char × ℤ)
  | [], _, _ => none
  | c :: r, prev, n => if prev && c = '/' then some (r, n + 1) else skipComment r (c = '*') (n + 1)

theorem skipLine_length : ∀ (l : List Char) (n : ℤ) {r : List Char} {m : ℤ}, skipLine l n = some (r, m) → r.length < l.length
  | [], _, _, _, h => by simp [skipLine] at h
  | c :: l, n, r, m, h => by
    rw [skipLine] at h
    split at h
    · obtain ⟨rfl, -⟩ := Prod.mk.inj (Option.some.inj h); simp
    · have := skipLine_length l _ h; simp; omega

theorem skipComment_length : ∀ (l : List Char) (p : Bool) (n : ℤ) {r : List Char} {m : ℤ},
    skipComment l p n = some (r, m) → r.length < l.length
  | [], _, _, _, _, h => by simp [skipComment] at h
  | c :: l, p, n, r, m, h => by
    rw [skipComment] at h
    split at h
    · obtain ⟨rfl, -⟩ := Prod.mk.inj (Option.some.inj h); simp
    · have := skipComment_length l _ _ h; simp; omega

/-- What `_EatSpace` does on a good stream. -/
inductive Space
  /-- returns a character; the rest of the stream; the count -/
  | got (c : Char) (r : List Char) (count : ℤ)
  /-- returns `EOF`, the stream has `eofbit` and `failbit` -/
  | eof (count : ℤ)
  /-- returns `/`, the last character of the stream; `putback(EOF)` has cleared `eofbit`, `failbit` stays -/
  | slash (count : ℤ)
  /-- throws `Error_BasicIO_File` inside a comment -/
  | throws

/-- Loop of `_EatSpace`, utilities/utility_io.cxx:80–99, on a good stream with the given value of `count`.  The character
behind a `/*`-comment is tested for being blank only, not for opening another comment. -/
def skipSpace (l : List Char) (count : ℤ) : Space :=
  match l with
  | [] => .eof (count + 1)
  | c :: r =>
    if c = '#' then
      match h : skipLine r 0 with
      | none => .throws
      | some p => have := skipLine_length _ _ (r := p.1) (m := p.2) h; skipSpace p.1 p.2
    else if c = '/' then
      match r with
      | [] => .slash (count + 1)
      | d :: r' =>
        if d = '/' then
          match h : skipLine r' 0 with
          | none => .throws
          | some p => have := skipLine_length _ _ (r := p.1) (m := p.2) h; skipSpace p.1 p.2
        else if d = '*' then
          match h : skipComment r' false 0 with
          | none => .throws
          | some p =>
            have := skipComment_length _ _ _ (r := p.1) (m := p.2) h
            match h2 : p.1 with
            | [] => .eof p.2
            | e :: r'' =>
              have : r''.length < p.1.length := by rw [h2]; simp
              if blank e then skipSpace r'' p.2 else .got e r'' p.2
        else .got '/' (d :: r') (count + 1)
    else if blank c then skipSpace r (count + 1)
    else .got c r (count + 1)
termination_by l.length
decreasing_by all_goals simp_all <;> omega

/-- `_EatSpace(is,&count)`, utilities/utility_io.cxx:76: the character and the count. -/
def eatSpace : Rd (Option Char × ℤ) := fun s =>
  if s.is.eof then .exc .file s
  else if s.is.fail then .ok (none, 0) s
  else match skipSpace s.is.rest (-1) with
    | .got c r n => .ok (some c, n) { s with is := ⟨r, false, false⟩ }
    | .eof n => .ok (none, n) { s with is := ⟨[], true, true⟩ }
    | .slash n => .ok (some '/', n) { s with is := ⟨[], false, true⟩ }
    | .throws => .exc .file { s with is := ⟨[], true, true⟩ }

/-- `Eat(is,delim)`, utilities/utility_io.cxx:108. -/
def eat (delim : Char) : Rd Unit := do
  let c ← eatSpace
  if c.1 = some delim then
    let d ← eatSpace
    putback d.1
  else raise .expDelim

/-- `EatEnd(is,delim)`, utilities/utility_io.cxx:122. -/
def eatEnd (delim : Char) : Rd Unit := do
  let c ← eatSpace
  if c.1 = some delim then pure () else raise .expDelim

/-- Loop of `Eat(is,descript)`, utilities/utility_io.cxx:160–176, for the characters of the description still to come.  `toupper` is that
of the classic locale; the description consists of 7-bit characters, which an `EOF` does not match. -/
def eatDescLoop : List Char → Rd Unit
  | [] => pure ()
  | c :: p =>
    if c.toUpper = ' ' then do
      let r ← eatSpace
      putback r.1
      if r.2 = 0 then raise .notASpace else eatDescLoop p
    else do
      let ch ← getc
      if ch.map Char.toUpper = some c.toUpper then eatDescLoop p else raise .unexpected

/-- `Eat(is,descript)`, utilities/utility_io.cxx:151. -/
def eatDesc (descript : List Char) : Rd Unit := do
  let r ← eatSpace
  putback r.1
  eatDescLoop descript

/-- `strchr(delim,ch) == NULL`: the terminating zero counts as part of `delim`; `EOF` converts to a character that is in
no delimiter string of the program. -/
def notDelim (delim : List Char) (ch : Option Char) : Bool :=
  match ch with
  | none => true
  | some c => !(c = '\x00' || delim.contains c)

/-- Loop of `EatWord`, utilities/utility_io.cxx:192–204.  `slots`: number of elements of `storage` from `p` on; all
callers pass the size of the array as `maxsize`.  With no slot left both the write of a character (:193, before the test
for `maxsize`) and the write of the terminating zero (:203) are outside the array.  An `EOF` is stored as some
character, `\xff`. -/
def eatWordLoop (delim : List Char) : (slots : ℕ) → Option Char → ℤ → List Char → Rd (List Char)
  | 0, _, _, _ => fun _ => .ub
  | slots + 1, ch, count, w =>
    if count = 0 ∧ notDelim delim ch = true then do
      checkStream
      let r ← eatSpace
      eatWordLoop delim slots r.1 r.2 (w ++ [match ch with | some c => c.toUpper | none => '\xff'])
    else do
      putback ch
      pure w

/-- `EatWord(is,delim,storage,maxsize)`, utilities/utility_io.cxx:182: the contents of `storage`. -/
def eatWord (delim : List Char) (maxsize : ℕ) : Rd (List Char) := do
  let r ← eatSpace
  eatWordLoop delim maxsize r.1 0 []

/-! ## The trace of the reading functions, utilities/error_stack.cxx -/

/-- `IOTrace`, utilities/error_stack.cxx:33. -/
def ioTrace (d : String) : Rd Unit := fun s => .ok () { s with trace := d :: s.trace }
/-- `IOTracePop`, utilities/error_stack.cxx:38; `pop` of an empty stack is undefined. -/
def ioTracePop : Rd Unit := fun s =>
  match s.trace with
  | [] => .ub
  | _ :: t => .ok () { s with trace := t }
/-- `IOTrace(d); …; IOTracePop();`: every exit of the reading functions that does not throw pops what was pushed. -/
def traced {α : Type} (d : String) (m : Rd α) : Rd α := do
  ioTrace d
  let a ← m
  ioTracePop
  pure a
/-- `IOTraceOutput`, utilities/error_stack.cxx:42: the lines written; the stack is empty afterwards. -/
def ioTraceOutput : Rd (List String) := fun s => .ok s.trace { s with trace := [] }
/-- `IOTracePopStr(buffer,size)`, utilities/error_stack.cxx:50: the string left in `buffer` (`none`: `buffer` is not
written).  `strncpy` copies at most `size` characters, the last one is overwritten by the terminator. -/
def ioTracePopStr (size : ℤ) : Rd (Option String) := fun s =>
  if size ≤ 0 then .ok none s
  else match s.trace with
    | [] => .ok (some "") s
    | d :: t => .ok (some (String.ofList (d.toList.take (size.toNat - 1)))) { s with trace := t }

/-! ## Numbers -/

/-- Insertion and extraction of numbers.  `read`, `readInt` get the characters from the first one that is not white space
on; they give the value, if the characters were a number, and the characters left. -/
structure NumIo where
  fmt : ℝ → List Char
  read : List Char → Option ℝ × List Char
  fmtInt : ℤ → List Char
  readInt : List Char → Option ℤ × List Char

/-- `isspace` of the classic locale, for the `skipws` of formatted extraction. -/
def isSpace (c : Char) : Bool := c = ' ' || c = '\n' || c = '\t' || c = '\x0b' || c = '\x0c' || c = '\r'

/-- `is >> x`: skips white space; a failed extraction sets `failbit`, and the variable is taken to be `dflt` then.  Which
value it has does not matter: the next `Eat` or `EatEnd` throws. -/
def extract {α : Type} (rd : List Char → Option α × List Char) (dflt : α) : Rd α := fun s =>
  if s.is.eof || s.is.fail then .ok dflt { s with is := { s.is with fail := true } }
  else match s.is.rest.dropWhile isSpace with
    | [] => .ok dflt { s with is := ⟨[], true, true⟩ }
    | c :: r => match rd (c :: r) with
      | (some x, r') => .ok x { s with is := ⟨r', r'.isEmpty, false⟩ }
      | (none, r') => .ok dflt { s with is := ⟨r', r'.isEmpty, true⟩ }

/-- `std::setw(KDL_FRAME_WIDTH) << x`; the width is 12 (utilities/kdl-config.h:27). -/
def pad (l : List Char) : List Char := List.replicate (12 - l.length) ' ' ++ l

variable (N : NumIo)

/-- `is >> double` -/
def number : Rd ℝ := extract N.read 0
/-- `is >> int` -/
def integer : Rd ℤ := extract N.readInt 0
/-- `is >> bool` without `boolalpha`: numbers other than 0 and 1 set `failbit`. -/
def boolean : Rd Bool := extract (fun l => match N.readInt l with
  | (some 0, r) => (some false, r)
  | (some 1, r) => (some true, r)
  | (_, r) => (none, r)) true

/-! ## frames_io.cpp: output -/

/-- frames_io.cpp:42. -/
def writeVec (v : Vec) : List Char :=
  '[' :: pad (N.fmt v.x) ++ ',' :: pad (N.fmt v.y) ++ ',' :: pad (N.fmt v.z) ++ [']']
/-- frames_io.cpp:48. -/
def writeTwist (t : Twist) : List Char :=
  '[' :: pad (N.fmt t.vel.x) ++ ',' :: pad (N.fmt t.vel.y) ++ ',' :: pad (N.fmt t.vel.z) ++
    ',' :: pad (N.fmt t.rot.x) ++ ',' :: pad (N.fmt t.rot.y) ++ ',' :: pad (N.fmt t.rot.z) ++ [']']
/-- frames_io.cpp:59. -/
def writeWrench (w : Wrench) : List Char :=
  '[' :: pad (N.fmt w.force.x) ++ ',' :: pad (N.fmt w.force.y) ++ ',' :: pad (N.fmt w.force.z) ++
    ',' :: pad (N.fmt w.torque.x) ++ ',' :: pad (N.fmt w.torque.y) ++ ',' :: pad (N.fmt w.torque.z) ++ [']']
/-- frames_io.cpp:71; without the options `KDL_ROTATION_PROPERTIES_RPY`/`_EULER`, which the build does not define. -/
def writeRot (R : Rot) : List Char :=
  '[' :: pad (N.fmt R.m00) ++ ',' :: pad (N.fmt R.m01) ++ ',' :: pad (N.fmt R.m02) ++ ';' :: '\n' :: ' ' ::
    pad (N.fmt R.m10) ++ ',' :: pad (N.fmt R.m11) ++ ',' :: pad (N.fmt R.m12) ++ ';' :: '\n' :: ' ' ::
    pad (N.fmt R.m20) ++ ',' :: pad (N.fmt R.m21) ++ ',' :: pad (N.fmt R.m22) ++ [']']
/-- frames_io.cpp:105. -/
def writeFrame (F : Frame) : List Char := '[' :: writeRot N F.M ++ '\n' :: writeVec N F.p ++ [']']
/-- frames_io.cpp:111. -/
def writeVec2 (v : Vec2) : List Char := '[' :: pad (N.fmt v.x) ++ ',' :: pad (N.fmt v.y) ++ [']']
/-- frames_io.cpp:118; `rad2deg` is `180/π`. -/
def writeRot2 (R : Rot2D) : List Char := '[' :: N.fmt (R.getRot * (180 / Real.pi)) ++ [']']
/-- frames_io.cpp:123. -/
def writeFrame2 (F : Frame2D) : List Char := writeRot2 N F.M ++ writeVec2 N F.p

/-! ## frames_io.cpp: input

The object read into is an argument only where its old value survives. -/

/-- `Eat(is,'['); is >> x; Eat(is,','); …; EatEnd(is,']')`: three numbers, as in frames_io.cpp:134–140. -/
def triple : Rd Vec := do
  eat '['
  let x ← number N
  eat ','
  let y ← number N
  eat ','
  let z ← number N
  eatEnd ']'
  pure ⟨x, y, z⟩

/-- Six numbers, frames_io.cpp:154–166 and 173–185. -/
def sextuple : Rd (Vec × Vec) := do
  eat '['
  let a ← number N
  eat ','
  let b ← number N
  eat ','
  let c ← number N
  eat ','
  let d ← number N
  eat ','
  let e ← number N
  eat ','
  let f ← number N
  eatEnd ']'
  pure (⟨a, b, c⟩, ⟨d, e, f⟩)

/-- `>> Vector`, frames_io.cpp:129. -/
def readVec : Rd Vec := traced "Stream input Vector (vector or ZERO)" do
  let w ← eatWord ['[', ']'] 10
  if w = [] then triple N
  else if w = "ZERO".toList then pure 0
  else raise .vectorId

/-- `>> Twist`, frames_io.cpp:152. -/
def readTwist : Rd Twist := traced "Stream input Twist" do
  let r ← sextuple N
  pure ⟨r.1, r.2⟩
/-- `>> Wrench`, frames_io.cpp:171. -/
def readWrench : Rd Wrench := traced "Stream input Wrench" do
  let r ← sextuple N
  pure ⟨r.1, r.2⟩

/-- One row of frames_io.cpp:196–206. -/
def row : Rd Vec := do
  let x ← number N
  eat ','
  let y ← number N
  eat ','
  let z ← number N
  pure ⟨x, y, z⟩

open PathCircle (deg2rad) in
/-- `>> Rotation`, frames_io.cpp:190. -/
def readRot : Rd Rot :=
  traced "Stream input Rotation (Matrix or EULERZYX, EULERZYZ,RPY, ROT, IDENTITY)" do
    let w ← eatWord ['[', ']'] 10
    if w = [] then do
      eat '['
      let a ← row N
      eat ';'
      let b ← row N
      eat ';'
      let c ← row N
      eatEnd ']'
      pure ⟨a.x, a.y, a.z, b.x, b.y, b.z, c.x, c.y, c.z⟩
    else if w = "EULERZYX".toList then do
      let v ← readVec N
      pure (Rot.eulerZYX (v.x * deg2rad) (v.y * deg2rad) (v.z * deg2rad))
    else if w = "EULERZYZ".toList then do
      let v ← readVec N
      pure (Rot.eulerZYZ (v.x * deg2rad) (v.y * deg2rad) (v.z * deg2rad))
    else if w = "RPY".toList then do
      let v ← readVec N
      pure (Rot.rpy (v.x * deg2rad) (v.y * deg2rad) (v.z * deg2rad))
    else if w = "ROT".toList then do
      let v ← readVec N
      eat '['
      let angle ← number N
      eatEnd ']'
      pure (Rot.rot v (angle * deg2rad))
    else if w = "IDENTITY".toList then pure 1
    else raise .rotationId

open PathCircle (deg2rad) in
/-- `>> Frame`, frames_io.cpp:251. -/
def readFrame : Rd Frame := traced "Stream input Frame (Rotation,Vector) or DH[...]" do
  let w ← eatWord ['['] 10
  if w = [] then do
    eat '['
    let M ← readRot N
    let p ← readVec N
    eatEnd ']'
    pure ⟨M, p⟩
  else if w = "DH".toList then do
    eat '['
    let a ← number N
    eat ','
    let alpha ← number N
    eat ','
    let d ← number N
    eat ','
    let theta ← number N
    eatEnd ']'
    pure (Frame.dh a (alpha * deg2rad) d (theta * deg2rad))
  else raise .frameId

/-- `>> Vector2`, frames_io.cpp:282. -/
def readVec2 : Rd Vec2 := traced "Stream input Vector2" do
  eat '['
  let x ← number N
  eat ','
  let y ← number N
  eatEnd ']'
  pure ⟨x, y⟩

open PathCircle (deg2rad) in
/-- `>> Rotation2`, frames_io.cpp:292.  `Rotation2::Rot` is a static function that returns a new object; line 297
discards it, so the object read into keeps its value `r`. -/
def readRot2 (r : Rot2D) : Rd Rot2D := traced "Stream input Rotation2" do
  eat '['
  let val ← number N
  let _discarded := Rot2D.ofAngle (val * deg2rad)
  eatEnd ']'
  pure r

/-- `>> Frame2`, frames_io.cpp:302. -/
def readFrame2 (T : Frame2D) : Rd Frame2D := traced "Stream input Frame2" do
  let M ← readRot2 N T.M
  let p ← readVec2 N
  pure ⟨M, p⟩

/-! ## Paths -/

/-- Path objects. -/
inductive PathObj
  /-- `Path_Point` -/
  | point (F : Frame)
  /-- `Path_Line` -/
  | line (l : PathLine)
  /-- `Path_Circle` -/
  | circle (c : PathCircle)
  /-- `Path_Composite` -/
  | composite (gv : List PathObj)
  /-- `Path_Cyclic_Closed` -/
  | cyclic (geom : PathObj) (times : ℤ)
  /-- `Path_RoundedComposite`; `parts` are the lines and circles in `comp`, which `RoundedComposite` has through the interface
  of paths only -/
  | rounded (parts : List (PathLine ⊕ PathCircle)) (r : RoundedComposite)

/-- `RotationalInterpolation_SingleAxis::Write`, rotational_interpolation_sa.cpp:75. -/
def writeOrient : List Char := "SingleAxis[] \n".toList

/-- `Path_Point::Write`, path_point.cpp:77. -/
def writePoint (F : Frame) : List Char := "POINT[ ".toList ++ writeFrame N F ++ "]\n".toList

/-- `Path_Line::Write`, path_line.cpp:173. -/
def writeLine (l : PathLine) : List Char :=
  "LINE[ ".toList ++ "  ".toList ++ writeFrame N ⟨l.orient.pos 0, l.V_base_start⟩ ++ "\n".toList ++ "  ".toList ++
    writeFrame N ⟨l.orient.pos (l.pathlength * l.scalerot), l.V_base_end⟩ ++ "\n".toList ++ "  ".toList ++ writeOrient ++
    "  ".toList ++ N.fmt l.eqradius ++ "]\n".toList

open PathCircle (deg2rad) in
/-- `Path_Circle::Write`, path_circle.cpp:158. -/
def writeCircle (c : PathCircle) : List Char :=
  "CIRCLE[ ".toList ++ "  ".toList ++ writeFrame N (c.pos 0) ++ "\n".toList ++ "  ".toList ++
    writeVec N c.F_base_center.p ++ "\n".toList ++ "  ".toList ++ writeVec N c.F_base_center.M.unitY ++ "\n".toList ++
    "  ".toList ++ writeRot N (c.orient.pos (c.pathlength * c.scalerot)) ++ "\n".toList ++ "  ".toList ++
    N.fmt (c.pathlength * c.scalelin / c.radius / deg2rad) ++ "\n".toList ++ "  ".toList ++ writeOrient ++ "  ".toList ++
    N.fmt c.eqradius ++ "]\n".toList

/-- `Path_Composite::Write`, path_composite.cpp:121, where `n` is the number of the parts and `parts` what they write. -/
def writeComposite (n : ℕ) (parts : List Char) : List Char :=
  "COMPOSITE[ \n".toList ++ "   ".toList ++ N.fmtInt n ++ "\n".toList ++ parts ++ "]\n".toList

/-- `Path_Cyclic_Closed::Write`, path_cyclic_closed.cpp:82, where `geom` is what the path repeated writes. -/
def writeCyclic (geom : List Char) (times : ℤ) : List Char :=
  "CYCLIC_CLOSED[ ".toList ++ "  ".toList ++ geom ++ "\n".toList ++ "  ".toList ++ N.fmtInt times ++
    "\n".toList ++ "]\n".toList

/-- `Write` of a line or circle in a rounded composite. -/
def writePart : PathLine ⊕ PathCircle → List Char
  | .inl l => writeLine N l
  | .inr c => writeCircle N c

mutual
/-- `Path::Write`: path_point.cpp:77, path_line.cpp:173, path_circle.cpp:158, path_composite.cpp:121 (`dv` and `gv` have
the same length), path_cyclic_closed.cpp:82, path_roundedcomposite.cpp:168 (what the composite writes). -/
def writePath : PathObj → List Char
  | .point F => writePoint N F
  | .line l => writeLine N l
  | .circle c => writeCircle N c
  | .composite gv => writeComposite N gv.length (writePaths gv)
  | .cyclic g times => writeCyclic N (writePath g) times
  | .rounded parts _ => writeComposite N parts.length (parts.flatMap (writePart N))
/-- The loop path_composite.cpp:124. -/
def writePaths : List PathObj → List Char
  | [] => []
  | p :: ps => writePath p ++ writePaths ps
end

/-- `RotationalInterpolation::Read`, rotational_interpolation.cpp:51.  The object carries no data. -/
def readOrient : Rd Unit := traced "RotationalInterpolation::Read" do
  let w ← eatWord ['['] 64
  eat '['
  if w = "SINGLEAXIS".toList then traced "SINGLEAXIS" (eatEnd ']')
  else if w = "THREEAXIS".toList then do ioTrace "THREEAXIS"; raise .notImplemented
  else if w = "TWOAXIS".toList then do ioTrace "TWOAXIS"; raise .notImplemented
  else raise .unexpectedTraj

/-- Lines 68–70 and 73 of path.cpp. -/
def readPoint : Rd PathObj := do
  let F ← readFrame N
  eatEnd ']'
  pure (.point F)

/-- Lines 76–83 and 86 of path.cpp. -/
def readLine : Rd PathObj := do
  let A ← readFrame N
  let B ← readFrame N
  readOrient
  let eqradius ← number N
  eatEnd ']'
  pure (.line (PathLine.ofFrames A B eqradius))

open PathCircle (deg2rad) in
/-- Lines 89–103 of path.cpp; the constructor is called after the traces are popped, in `readPath`. -/
def readCircle : Rd (PathRes PathCircle) := do
  let F ← readFrame N
  let center ← readVec N
  let p ← readVec N
  let R ← readRot N
  let alpha ← number N
  readOrient
  let eqradius ← number N
  eatEnd ']'
  pure (PathCircle.new F center p R (alpha * deg2rad) eqradius)

/-- What the constructor of `Path_Circle` makes of the data read, path.cpp:106. -/
def ofCircle : PathRes PathCircle → Rd PathObj
  | .ok c => pure (.circle c)
  | .nan => notModelled
  | _ => raise .planning

/-- The loop path.cpp:144. -/
def readMany {α : Type} (m : Rd α) : ℕ → Rd (List α)
  | 0 => pure []
  | n + 1 => do
    let a ← m
    let as ← readMany m n
    pure (a :: as)

open Classical in
/-- The lines and circles that `Path_RoundedComposite::Add` appends to `comp`, path_roundedcomposite.cpp:70; the rest of `Add`
is `RoundedComposite.add`. -/
def addedParts (r : RoundedComposite) (F : Frame) : List (PathLine ⊕ PathCircle) :=
  if r.nrofpoints = 0 then []
  else if r.nrofpoints = 1 then []
  else
    let ab := r.F_base_via.p - r.F_base_start.p
    let bc := F.p - r.F_base_via.p
    let alpha := RoundedComposite.cornerAngle ab bc
    if ab.norm < 1 / 10 ^ 7 ∨ bc.norm < 1 / 10 ^ 7 ∨ Real.pi - alpha < 1 / 10 ^ 7 then []
    else if alpha < 1 / 10 ^ 7 then [.inl (PathLine.ofFrames r.F_base_start r.F_base_via r.eqradius)]
    else
      let d := r.radius / Real.tan ((Real.pi - alpha) / 2)
      if d ≥ ab.norm ∨ d ≥ bc.norm then []
      else
        match RoundedComposite.corner r.radius r.eqradius alpha d r.F_base_start r.F_base_via F with
        | none => []
        | some (l, .ok c, _) => [.inl l, .inr c]
        | some (l, _, _) => [.inl l]

/-- The loop path.cpp:128. -/
def readPoints : ℕ → List (PathLine ⊕ PathCircle) → RoundedComposite → Rd (List (PathLine ⊕ PathCircle) × RoundedComposite)
  | 0, parts, r => pure (parts, r)
  | n + 1, parts, r => do
    let F ← readFrame N
    match r.add F with
    | (.ok _, r') => readPoints n (parts ++ addedParts r F) r'
    | (.nan, _) => notModelled
    | _ => raise .planning

/-- The object after `Finish`, path_roundedcomposite.cpp:139. -/
def finishRounded (parts : List (PathLine ⊕ PathCircle)) (r : RoundedComposite) : PathObj :=
  .rounded (if r.nrofpoints ≥ 1 then parts ++ [.inl (PathLine.ofFrames r.F_base_start r.F_base_via r.eqradius)] else parts) r.finish

/-- Lines 117–134 and 137 of path.cpp. -/
def readRounded : Rd PathObj := do
  let radius ← number N
  let eqradius ← number N
  readOrient
  match RoundedComposite.new radius eqradius with
  | .ok r => do
    let size ← integer N
    let pr ← readPoints N size.toNat [] r
    eatEnd ']'
    pure (finishRounded pr.1 pr.2)
  | _ => raise .planning

/-- `Path::Read`, path.cpp:60.  `depth` bounds the nesting of the recursive calls (the program has no bound);
`unmodelled` if it is exceeded. -/
def readPath : ℕ → Rd PathObj
  | 0 => notModelled
  | depth + 1 => do
    let r ← traced "Path::Read" do
      let w ← eatWord ['['] 64
      eat '['
      if w = "POINT".toList then traced "POINT" do
        let p ← readPoint N
        pure (Sum.inl p)
      else if w = "LINE".toList then traced "LINE" do
        let p ← readLine N
        pure (Sum.inl p)
      else if w = "CIRCLE".toList then traced "CIRCLE" do
        let c ← readCircle N
        pure (Sum.inr c)
      else if w = "ROUNDEDCOMPOSITE".toList then traced "ROUNDEDCOMPOSITE" do
        let p ← readRounded N
        pure (Sum.inl p)
      else if w = "COMPOSITE".toList then traced "COMPOSITE" do
        let size ← integer N
        let gv ← readMany (readPath depth) size.toNat
        eatEnd ']'
        pure (Sum.inl (.composite gv))
      else if w = "CYCLIC_CLOSED".toList then traced "CYCLIC_CLOSED" do
        let g ← readPath depth
        let times ← integer N
        eatEnd ']'
        pure (Sum.inl (.cyclic g times))
      else raise .unexpectedTraj
    match r with
    | .inl p => pure p
    | .inr c => ofCircle c

/-! ## Velocity profiles and trajectories -/

/-- Profile objects, with their state. -/
inductive ProfObj
  /-- `VelocityProfile_Dirac` -/
  | dirac (d : DiracProfile)
  /-- `VelocityProfile_Rectangular` -/
  | rect (r : RectProfile)
  /-- `VelocityProfile_Trap` -/
  | trap (t : TrapProfile)
  /-- `VelocityProfile_TrapHalf`, planned -/
  | half (h : TrapHalf) (q : Quad3)
  /-- `VelocityProfile_Spline` -/
  | spline (s : SplineProfile)

/-- Profile objects just constructed.  Only the constructor of `VelocityProfile_Trap` (velocityprofile_trap.cpp:49)
initialises the members that describe the motion. -/
inductive NewProf
  /-- `VelocityProfile_Dirac()` -/
  | dirac
  /-- `VelocityProfile_Rectangular(maxvel)`, velocityprofile_rect.hpp:64 -/
  | rect (maxvel : ℝ)
  /-- `VelocityProfile_Trap(maxvel,maxacc)`, velocityprofile_trap.cpp:49 -/
  | trap (maxvel maxacc : ℝ)
  /-- `VelocityProfile_TrapHalf(maxvel,maxacc,starting)`, velocityprofile_traphalf.cpp:50 -/
  | half (maxvel maxacc : ℝ) (starting : Bool)

/-- `Duration()` of a profile just constructed; `none`: the member is not initialised. -/
def NewProf.duration : NewProf → Option ℝ
  | .trap v a => some (TrapProfile.new v a).q.duration
  | _ => none

/-- `Duration()` of a profile. -/
def ProfObj.duration : ProfObj → ℝ
  | .dirac d => d.t
  | .rect r => r.d
  | .trap t => t.q.duration
  | .half _ q => q.duration
  | .spline s => s.duration

/-- `VelocityProfile::Write`: velocityprofile_dirac.cpp:84, velocityprofile_rect.cpp:127, velocityprofile_trap.cpp:189,
velocityprofile_traphalf.cpp:194, velocityprofile_spline.cpp:184. -/
def writeProf : ProfObj → List Char
  | .dirac _ => "DIRACVEL[ ]".toList
  | .rect r => "CONSTVEL[".toList ++ N.fmt r.maxvel ++ "]".toList
  | .trap t => "TRAPEZOIDAL[".toList ++ N.fmt t.maxvel ++ ",".toList ++ N.fmt t.maxacc ++ "]".toList
  | .half h _ => "TRAPEZOIDALHALF[".toList ++ N.fmt h.maxvel ++ ",".toList ++ N.fmt h.maxacc ++ ",".toList ++
      N.fmtInt (if h.starting then 1 else 0) ++ "]".toList
  | .spline s => "coefficients : [ ".toList ++ N.fmt s.c0 ++ " ".toList ++ N.fmt s.c1 ++ " ".toList ++ N.fmt s.c2 ++
      " ".toList ++ N.fmt s.c3 ++ " ".toList ++ N.fmt s.c4 ++ " ".toList ++ N.fmt s.c5 ++ " ]".toList

/-- `VelocityProfile::Read`, velocityprofile.cpp:53. -/
def readProf : Rd NewProf := traced "VelocityProfile::Read" do
  let w ← eatWord ['['] 25
  eat '['
  if w = "DIRACVEL".toList then do
    eat ']'
    pure .dirac
  else if w = "CONSTVEL".toList then do
    let vel ← number N
    eat ']'
    pure (.rect vel)
  else if w = "TRAPEZOIDAL".toList then do
    let maxvel ← number N
    eat ','
    let maxacc ← number N
    eat ']'
    pure (.trap maxvel maxacc)
  else if w = "TRAPEZOIDALHALF".toList then do
    let maxvel ← number N
    eat ','
    let maxacc ← number N
    eat ','
    let starting ← boolean N
    eat ']'
    pure (.half maxvel maxacc starting)
  else raise .unexpectedProf

/-- Trajectory objects. -/
inductive TrajObj
  /-- `Trajectory_Segment` -/
  | segment (geom : PathObj) (motprof : ProfObj)
  /-- `Trajectory_Composite` -/
  | composite (vt : List TrajObj)
  /-- `Trajectory_Stationary` -/
  | stationary (duration : ℝ) (pos : Frame)

/-- `Trajectory_Segment::Write`, trajectory_segment.cpp:84. -/
def writeSegment (g : PathObj) (m : ProfObj) : List Char :=
  "SEGMENT[ \n".toList ++ "  ".toList ++ writePath N g ++ "\n".toList ++ "  ".toList ++ writeProf N m ++
    "\n".toList ++ "]".toList

/-- `Trajectory_Composite::Write`, trajectory_composite.cpp:107. -/
def writeTrajComposite (n : ℕ) (parts : List Char) : List Char :=
  "COMPOSITE[ ".toList ++ N.fmtInt n ++ "\n".toList ++ parts ++ "]\n".toList

/-- `Trajectory_Stationary::Write`, trajectory_stationary.cpp:21. -/
def writeStationary (d : ℝ) (F : Frame) : List Char :=
  "STATIONARY[ ".toList ++ N.fmt d ++ "\n".toList ++ writeFrame N F ++ "\n".toList ++ "]".toList

mutual
/-- `Trajectory::Write`: trajectory_segment.cpp:84, trajectory_composite.cpp:107, trajectory_stationary.cpp:21. -/
def writeTraj : TrajObj → List Char
  | .segment g m => writeSegment N g m
  | .composite vt => writeTrajComposite N vt.length (writeTrajs vt)
  | .stationary d F => writeStationary N d F
/-- The loop trajectory_composite.cpp:110. -/
def writeTrajs : List TrajObj → List Char
  | [] => []
  | t :: ts => writeTraj t ++ writeTrajs ts
end

/-- `Trajectory::Read`, trajectory.cpp:56: the path and the profile given to the constructor of `Trajectory_Segment`
(trajectory_segment.cpp:49), which stores them. -/
def readTraj (depth : ℕ) : Rd (PathObj × NewProf) := traced "Trajectory::Read" do
  let w ← eatWord ['['] 64
  eat '['
  if w = "SEGMENT".toList then traced "SEGMENT" do
    let g ← readPath N depth
    let m ← readProf N
    eatEnd ']'
    pure (g, m)
  else raise .unexpectedTraj

/-! ## kinfam_io.cpp -/

/-- `<< JntArray`, kinfam_io.cpp:75: the entries padded to 12 characters, without separators. -/
def writeJntArray (q : List ℝ) : List Char := '[' :: (q.map fun x => pad (N.fmt x)).flatten ++ [']']
/-- `>> JntArray`, kinfam_io.cpp:83, and likewise `>>` for Joint, Segment, Chain, Tree, Jacobian and
JntSpaceInertiaMatrix, kinfam_io.cpp:32–114: returns without reading or changing anything. -/
def readKinfam {α : Type} (old : α) : Rd α := pure old

/-! ## Specification vocabulary (no C++ counterpart) -/

/-- The characters that are allowed between tokens, besides comments (frames_io.hpp:34). -/
def gap (c : Char) : Bool := c = ' ' || c = '\n' || c = '\t'

/-- A character that is neither blank nor can open a comment. -/
def Solid (c : Char) : Prop := gap c = false ∧ c ≠ '#' ∧ c ≠ '/'

/-- A text that starts with such a character. -/
def SolidHead (l : List Char) : Prop := ∃ c r, l = c :: r ∧ Solid c

/-- `t` followed by `*/` has no earlier `*/`. -/
def NoEnd (t : List Char) : Prop := ∀ u v, t ++ ['*'] ≠ u ++ '*' :: '/' :: v

/-- Spaces, tabs, newlines and comments of the three kinds in any order; a comment of the kind `/* */` is not followed
immediately by another comment. -/
inductive Blank : List Char → Prop
  | nil : Blank []
  | space (c : Char) (b : List Char) : gap c = true → Blank b → Blank (c :: b)
  | hash (t b : List Char) : '\n' ∉ t → Blank b → Blank ('#' :: (t ++ '\n' :: b))
  | slashes (t b : List Char) : '\n' ∉ t → Blank b → Blank ('/' :: '/' :: (t ++ '\n' :: b))
  | block (t b : List Char) : NoEnd t → Blank b → (b = [] ∨ ∃ c r, b = c :: r ∧ gap c = true) →
      Blank ('/' :: '*' :: (t ++ '*' :: '/' :: b))

/-- The characters of which one follows every number in the texts concerned. -/
def stopChars : List Char := [' ', '\n', '\t', '#', '/', ',', ';', '[', ']']

/-- A text before which the extraction of a number stops. -/
def Stops (l : List Char) : Prop := ∃ c r, l = c :: r ∧ c ∈ stopChars

/-- What is assumed of the insertion and extraction of numbers: a number that has been written is read back, up to a
rounding `rnd`, if one of the `stopChars` follows.  For `int` the range is that of 32 bits. -/
structure NumOk (N : NumIo) (rnd : ℝ → ℝ) : Prop where
  head : ∀ x, ∃ c r, N.fmt x = c :: r ∧ isSpace c = false ∧ c ≠ '#' ∧ c ≠ '/'
  read : ∀ x l, Stops l → N.read (N.fmt x ++ l) = (some (rnd x), l)
  headInt : ∀ n, ∃ c r, N.fmtInt n = c :: r ∧ isSpace c = false ∧ c ≠ '#' ∧ c ≠ '/'
  readInt : ∀ n l, -2 ^ 31 ≤ n → n < 2 ^ 31 → Stops l → N.readInt (N.fmtInt n ++ l) = (some n, l)

/-- Tokens, each preceded by blanks and comments. -/
inductive Toks : List (List Char) → List Char → Prop
  | nil : Toks [] []
  | cons (b t : List Char) (ts : List (List Char)) (l : List Char) : Blank b → Toks ts l → Toks (t :: ts) (b ++ (t ++ l))

/-- The state of a stream with the characters `l` left and no flag set. -/
def good (l : List Char) (tr : List String) : IoState := ⟨⟨l, false, false⟩, tr⟩

/-- On a good stream with the characters `l` the function returns `a`, leaves `r`, and leaves the trace as it was. -/
def Reads {α : Type} (m : Rd α) (l : List Char) (a : α) (r : List Char) : Prop :=
  ∀ tr, m (good l tr) = .ok a (good r tr)

/-- The tokens of a vector as documented in frames_io.hpp:33. -/
def vecToks (N : NumIo) (v : Vec) : List (List Char) := [['['], N.fmt v.x, [','], N.fmt v.y, [','], N.fmt v.z, [']']]
/-- The tokens of a twist or wrench, frames_io.hpp:38–43. -/
def sixToks (N : NumIo) (a b : Vec) : List (List Char) :=
  [['['], N.fmt a.x, [','], N.fmt a.y, [','], N.fmt a.z, [','], N.fmt b.x, [','], N.fmt b.y, [','], N.fmt b.z, [']']]
/-- The tokens of a rotation matrix, frames_io.hpp:44–47. -/
def rotToks (N : NumIo) (R : Rot) : List (List Char) :=
  [['['], N.fmt R.m00, [','], N.fmt R.m01, [','], N.fmt R.m02, [';'], N.fmt R.m10, [','], N.fmt R.m11, [','], N.fmt R.m12,
    [';'], N.fmt R.m20, [','], N.fmt R.m21, [','], N.fmt R.m22, [']']]
/-- The tokens of a frame, frames_io.hpp:58. -/
def frameToks (N : NumIo) (F : Frame) : List (List Char) := ['['] :: (rotToks N F.M ++ vecToks N F.p ++ [[']']])
/-- The tokens of `DH[a,alpha,d,theta]`, frames_io.hpp:62, without the word. -/
def fourToks (N : NumIo) (a b c d : ℝ) : List (List Char) :=
  [['['], N.fmt a, [','], N.fmt b, [','], N.fmt c, [','], N.fmt d, [']']]
/-- The tokens of a planar vector. -/
def vec2Toks (N : NumIo) (v : Vec2) : List (List Char) := [['['], N.fmt v.x, [','], N.fmt v.y, [']']]

/-- Entrywise rounding. -/
def rndVec (rnd : ℝ → ℝ) (v : Vec) : Vec := ⟨rnd v.x, rnd v.y, rnd v.z⟩
/-- Entrywise rounding. -/
def rndRot (rnd : ℝ → ℝ) (R : Rot) : Rot :=
  ⟨rnd R.m00, rnd R.m01, rnd R.m02, rnd R.m10, rnd R.m11, rnd R.m12, rnd R.m20, rnd R.m21, rnd R.m22⟩
/-- Entrywise rounding. -/
def rndFrame (rnd : ℝ → ℝ) (F : Frame) : Frame := ⟨rndRot rnd F.M, rndVec rnd F.p⟩

end KDL.TextIo
