import Verif.Model.Errors
import Verif.Props.MotionIo
import Mathlib.Analysis.SpecialFunctions.Trigonometric.Inverse

/-! # C86: the classes and types of exceptions -/

namespace KDL.Err
open TextIo (Rd IoErr IoState)

/-- A class from which no other is derived: one that names a particular error. -/
def Leaf (k : Cls) : Prop := ∀ k', Cls.base k' ≠ some k

theorem leaf_const {k : Cls} (h : Leaf k) (hk : k ≠ .Error_MotionPlanning_Not_Feasible) :
    (∃ n, k.constType = some n) ∧ (∃ d, k.constDescr = some d) ∧ k ≠ .Error ∧ k ≠ .Error_IO := by
  cases k
  case Error => exact absurd rfl (h .Error_IO)
  case Error_IO => exact absurd rfl (h .Error_BasicIO)
  case Error_BasicIO => exact absurd rfl (h .Error_BasicIO_File)
  case Error_FrameIO => exact absurd rfl (h .Error_Frame_Vector_Unexpected_id)
  case Error_ChainIO => exact absurd rfl (h .Error_Chain_Unexpected_id)
  case Error_RedundancyIO => exact absurd rfl (h .Error_Redundancy_Illegal_Resolutiontype)
  case Error_Redundancy => exact absurd rfl (h .Error_Redundancy_Unavoidable)
  case Error_MotionIO => exact absurd rfl (h .Error_MotionIO_Unexpected_Traj)
  case Error_MotionPlanning => exact absurd rfl (h .Error_MotionPlanning_Incompatible)
  case Error_Integrator => exact absurd rfl (h .Error_To_Many_Steps)
  case Error_Criterium => exact absurd rfl (h .Error_Criterium_Unexpected_id)
  case Error_Limits => exact absurd rfl (h .Error_Limits_Unexpected_id)
  case Error_MotionPlanning_Not_Feasible => exact absurd rfl hk
  all_goals exact ⟨⟨_, rfl⟩, ⟨_, rfl⟩, by decide, by decide⟩

/-- The class of a type. -/
private def ofType (n : ℤ) : Cls :=
  if n = 0 then .Error
  else if n = 1 then .Error_BasicIO_File
  else if n = 2 then .Error_BasicIO_Exp_Delim
  else if n = 3 then .Error_BasicIO_Not_A_Space
  else if n = 4 then .Error_BasicIO_Unexpected
  else if n = 5 then .Error_BasicIO_ToBig
  else if n = 6 then .Error_BasicIO_Not_Opened
  else if n = 101 then .Error_Frame_Vector_Unexpected_id
  else if n = 102 then .Error_Frame_Frame_Unexpected_id
  else if n = 103 then .Error_Frame_Rotation_Unexpected_id
  else if n = 201 then .Error_Chain_Unexpected_id
  else if n = 301 then .Error_Redundancy_Illegal_Resolutiontype
  else if n = 1002 then .Error_Redundancy_Unavoidable
  else if n = 1003 then .Error_Redundancy_Low_Manip
  else if n = 2001 then .Error_MotionIO_Unexpected_MotProf
  else if n = 2002 then .Error_MotionIO_Unexpected_Traj
  else if n = 3001 then .Error_MotionPlanning_Circle_ToSmall
  else if n = 3002 then .Error_MotionPlanning_Circle_No_Plane
  else if n = 3003 then .Error_MotionPlanning_Incompatible
  else if n = 3004 then .Error_MotionPlanning_Not_Applicable
  else if n = 4001 then .Error_Stepsize_Underflow
  else if n = 4002 then .Error_To_Many_Steps
  else if n = 4003 then .Error_Stepsize_To_Small
  else if n = 5001 then .Error_Criterium_Unexpected_id
  else if n = 6001 then .Error_Limits_Unexpected_id
  else .Error_Not_Implemented

private theorem ofType_const {k : Cls} {n : ℤ} (h : k.constType = some n) : ofType n = k := by
  cases k <;> simp only [Cls.constType, Option.some.injEq, reduceCtorEq] at h <;> subst h <;> rfl

private theorem const_range {k : Cls} {n : ℤ} (h : k.constType = some n) (hk : k ≠ .Error) : 0 < n ∧ (n ≤ 3100 ∨ 4000 ≤ n) := by
  cases k <;> simp only [Cls.constType, Option.some.injEq, reduceCtorEq] at h <;> subst h <;> simp_all

theorem getType_const {k : Cls} {n : ℤ} (h : k.constType = some n) (hk : k ≠ .Error_IO) (hn : k ≠ .Error_MotionPlanning_Not_Feasible) :
    (Exc.default k).getType = some (.val n) := by
  have : Cls.ownType (Exc.default k) k = some (.val n) := by
    cases k <;> first | exact absurd rfl hk | exact absurd rfl hn | (simp only [Cls.ownType, h, Option.map_some])
  unfold Exc.getType
  rw [show (Exc.default k).cls = k from rfl, dispatch, this]

/-- The class of a description. -/
private def ofDescr (d : String) : Cls :=
  if d = "Unspecified Error\n" then .Error
  else if d = "Error while reading stream" then .Error_BasicIO_File
  else if d = "Expected Delimiter not encountered" then .Error_BasicIO_Exp_Delim
  else if d = "Expected space,tab or newline not encountered" then .Error_BasicIO_Not_A_Space
  else if d = "Unexpected character" then .Error_BasicIO_Unexpected
  else if d = "Word that is read out of stream is bigger than maxsize" then .Error_BasicIO_ToBig
  else if d = "File cannot be opened" then .Error_BasicIO_Not_Opened
  else if d = "Unexpected identifier, expecting a vector (explicit or ZERO)" then .Error_Frame_Vector_Unexpected_id
  else if d = "Unexpected identifier, expecting a Frame (explicit or DH)" then .Error_Frame_Frame_Unexpected_id
  else if d = "Unexpected identifier, expecting a Rotation (explicit or EULERZYX, EULERZYZ, RPY,ROT,IDENTITY)" then .Error_Frame_Rotation_Unexpected_id
  else if d = "Unexpected identifier, expecting TRANS or ROT" then .Error_Chain_Unexpected_id
  else if d = "Illegal Resolutiontype is used in I/O with ResolutionTask" then .Error_Redundancy_Illegal_Resolutiontype
  else if d = "Joint limits cannot be avoided" then .Error_Redundancy_Unavoidable
  else if d = "Manipulability is very low" then .Error_Redundancy_Low_Manip
  else if d = "Wrong keyword while reading motion profile" then .Error_MotionIO_Unexpected_MotProf
  else if d = "Trajectory type keyword not known" then .Error_MotionIO_Unexpected_Traj
  else if d = "Circle : radius is to small" then .Error_MotionPlanning_Circle_ToSmall
  else if d = "Circle : Plane for motion is not properly defined" then .Error_MotionPlanning_Circle_No_Plane
  else if d = "Acceleration of a rectangular velocityprofile cannot be used" then .Error_MotionPlanning_Incompatible
  else if d = "Motion Profile with requested parameters is not feasible" then .Error_MotionPlanning_Not_Feasible
  else if d = "Method is not applicable for this derived object" then .Error_MotionPlanning_Not_Applicable
  else if d = "Stepsize Underflow" then .Error_Stepsize_Underflow
  else if d = "To many steps" then .Error_To_Many_Steps
  else if d = "Stepsize to small" then .Error_Stepsize_To_Small
  else if d = "Unexpected identifier while reading a criterium" then .Error_Criterium_Unexpected_id
  else if d = "Unexpected identifier while reading a jointlimits" then .Error_Limits_Unexpected_id
  else .Error_Not_Implemented

private theorem ofDescr_const {k : Cls} {d : String} (h : k.constDescr = some d) : ofDescr d = k := by
  cases k <;> simp only [Cls.constDescr, Option.some.injEq, reduceCtorEq] at h <;> subst h <;> rfl

theorem getDescr_const {k : Cls} {d : String} (h : k.constDescr = some d) (hk : k ≠ .Error_IO) :
    ∀ x : Exc, x.cls = k → x.description = some (some d) := by
  intro x hx
  have : Cls.ownDescr x k = some (some d) := by
    cases k <;> first | exact absurd rfl hk | (simp only [Cls.ownDescr, h, Option.map_some])
  unfold Exc.description
  rw [hx, dispatch, this]

/-- **C86, types.**  Every error that is not merely a base class for others has its own type, which is not that of the base classes (0),
and its own description. -/
theorem C86_types (k k' : Cls) (hk : Leaf k) (hk' : Leaf k') (hn : k ≠ .Error_MotionPlanning_Not_Feasible)
    (hn' : k' ≠ .Error_MotionPlanning_Not_Feasible) :
    (∃ n, 0 < n ∧ (Exc.default k).getType = some (.val n)) ∧ ((Exc.default k).getType = (Exc.default k').getType → k = k') ∧
    ((Exc.default k).description = (Exc.default k').description → k = k') := by
  obtain ⟨⟨n, h⟩, ⟨d, hd⟩, h0, h1⟩ := leaf_const hk hn
  obtain ⟨⟨n', h'⟩, ⟨d', hd'⟩, -, h1'⟩ := leaf_const hk' hn'
  rw [getType_const h h1 hn, getType_const h' h1' hn', getDescr_const hd h1 _ rfl, getDescr_const hd' h1' _ rfl]
  refine ⟨⟨n, (const_range h h0).1, rfl⟩, fun e => ?_, fun e => ?_⟩
  · simp only [Option.some.injEq, Res.val.injEq] at e
    subst e
    rw [← ofType_const h, ofType_const h']
  · simp only [Option.some.injEq] at e
    subst e
    rw [← ofDescr_const hd, ofDescr_const hd']

/-- **C86, infeasible motions.**  The reasons 1 to 6 that the library gives have types of their own too. -/
theorem C86_infeasible (r : ℤ) (h1 : 1 ≤ r) (h6 : r ≤ 6) :
    (Exc.notFeasible r).getType = some (.val (3100 + r)) ∧
    ∀ k, Leaf k → k ≠ .Error_MotionPlanning_Not_Feasible → (Exc.default k).getType ≠ (Exc.notFeasible r).getType := by
  have h : (Exc.notFeasible r).getType = some (.val (3100 + r)) := by
    simp only [Exc.getType, Exc.notFeasible, dispatch, Cls.ownType]
    rw [if_pos (by omega)]
  refine ⟨h, fun k hk hn e => ?_⟩
  obtain ⟨⟨n, hc⟩, -, h0, h1⟩ := leaf_const hk hn
  rw [getType_const hc h1 hn, h] at e
  simp only [Option.some.injEq, Res.val.injEq] at e
  have := const_range hc h0
  omega

/-- **C86 fails** for `Error_IO` and the classes that inherit its `GetType`: the constructor ignores the type it is given, and `GetType`
returns a member that was never written. -/
theorem C86_io_violated (msg : String) (n : ℤ) : (Exc.io msg n).getType = some .ub ∧ (Exc.default .Error_BasicIO).getType = some .ub ∧
    (Exc.default .Error_FrameIO).getType = some .ub ∧ (Exc.default .Error_RedundancyIO).getType = some .ub := ⟨rfl, rfl, rfl, rfl⟩

/-- The message of an `Error_IO` is the one it was given. -/
theorem C86_io_message (msg : String) (n : ℤ) : (Exc.io msg n).description = some (some msg) := rfl

/-! ## What a handler takes -/

/-- Every exception has the property. -/
def Raises {α : Type} (P : IoErr → Prop) (m : Rd α) : Prop := ∀ s e s', m s = .exc e s' → P e

variable {P Q : IoErr → Prop}

theorem Raises.bind {α β : Type} {m : Rd α} {f : α → Rd β} (h : Raises P m) (h' : ∀ a, Raises P (f a)) : Raises P (m >>= f) := by
  intro s e s'' hb
  have hb : TextIo.Rd.bind m f s = .exc e s'' := hb
  unfold TextIo.Rd.bind at hb
  cases hm : m s with
  | ok a s' => rw [hm] at hb; exact h' a s' e s'' hb
  | exc e' s' =>
    rw [hm] at hb
    simp only [TextIo.Out.exc.injEq] at hb
    exact hb.1 ▸ h s e' s' hm
  | ub => rw [hm] at hb; cases hb
  | unmodelled => rw [hm] at hb; cases hb

theorem Raises.pure {α : Type} (a : α) : Raises P (pure a : Rd α) := by
  intro s e s' h; cases h

theorem Raises.raise {α : Type} {e : IoErr} (h : P e) : Raises P (TextIo.raise e : Rd α) := by
  intro s e' s' h'
  simp only [TextIo.raise, TextIo.Out.exc.injEq] at h'
  exact h'.1 ▸ h

theorem Raises.traced {α : Type} {d : String} {m : Rd α} (h : Raises P m) : Raises P (TextIo.traced d m) := by
  have h1 : Raises P (TextIo.ioTrace d) := by intro s e s' h; cases h
  have h2 : Raises P TextIo.ioTracePop := by
    intro s e s' h
    unfold TextIo.ioTracePop at h
    split at h <;> cases h
  exact h1.bind fun _ => h.bind fun _ => h2.bind fun _ => .pure _

theorem Raises.extract {α : Type} (rd : List Char → Option α × List Char) (d : α) : Raises P (TextIo.extract rd d) := by
  intro s e s' h
  unfold TextIo.extract at h
  split at h
  · cases h
  · split at h
    · cases h
    · split at h <;> cases h

section
variable (hP : P .file) (hD : P .expDelim)
include hP

theorem Raises.eatSpace : Raises P TextIo.eatSpace := by
  intro s e s' h
  unfold TextIo.eatSpace at h
  split at h
  · cases h; exact hP
  · split at h
    · cases h
    · split at h <;> cases h
      exact hP

theorem Raises.checkStream : Raises P TextIo.checkStream := by
  intro s e s' h
  unfold TextIo.checkStream at h
  split at h <;> cases h
  exact hP

omit hP in
theorem Raises.putback (c : Option Char) : Raises P (TextIo.putback c) := by
  intro s e s' h
  unfold TextIo.putback at h
  split at h
  · cases h
  · split at h <;> cases h

theorem Raises.eatWord (d : List Char) (n : ℕ) : Raises P (TextIo.eatWord d n) := by
  refine (Raises.eatSpace hP).bind fun r => ?_
  have : ∀ n c k w, Raises P (TextIo.eatWordLoop d n c k w) := by
    intro n
    induction n with
    | zero => intro c k w s e s' h; cases h
    | succ n ih =>
      intro c k w
      unfold TextIo.eatWordLoop
      split
      · exact (Raises.checkStream hP).bind fun _ => (Raises.eatSpace hP).bind fun r => ih _ _ _
      · exact (Raises.putback _).bind fun _ => .pure _
  exact this _ _ _ _

include hD

theorem Raises.eat (d : Char) : Raises P (TextIo.eat d) :=
  (Raises.eatSpace hP).bind fun c => by
    split
    · exact (Raises.eatSpace hP).bind fun _ => .putback _
    · exact .raise hD

theorem Raises.eatEnd (d : Char) : Raises P (TextIo.eatEnd d) :=
  (Raises.eatSpace hP).bind fun c => by
    split
    · exact .pure _
    · exact .raise hD

end

/-- A reading function of frames_io.cpp.  The object read into is given where its old value survives. -/
inductive FrameReader (N : TextIo.NumIo) : {α : Type} → Rd α → Prop
  | vector : FrameReader N (TextIo.readVec N)
  | twist : FrameReader N (TextIo.readTwist N)
  | wrench : FrameReader N (TextIo.readWrench N)
  | rotation : FrameReader N (TextIo.readRot N)
  | frame : FrameReader N (TextIo.readFrame N)
  | vector2 : FrameReader N (TextIo.readVec2 N)
  | rotation2 (r) : FrameReader N (TextIo.readRot2 N r)
  | frame2 (r) : FrameReader N (TextIo.readFrame2 N r)

local macro "raises" hP:term:max hD:term:max : tactic => `(tactic| repeat' first
  | assumption
  | apply Raises.traced
  | exact Raises.pure _
  | exact Raises.eat $hP $hD _
  | exact Raises.eatEnd $hP $hD _
  | exact Raises.eatWord $hP _ _
  | exact Raises.extract _ _
  | refine Raises.bind ?_ fun _ => ?_
  | split)

section
variable (N : TextIo.NumIo) (hP : P .file) (hD : P .expDelim)
include hP hD

theorem Raises.triple : Raises P (TextIo.triple N) := by
  unfold TextIo.triple TextIo.number
  raises hP hD

theorem Raises.sextuple : Raises P (TextIo.sextuple N) := by
  unfold TextIo.sextuple TextIo.number
  raises hP hD

theorem Raises.row : Raises P (TextIo.row N) := by
  unfold TextIo.row TextIo.number
  raises hP hD

theorem Raises.vec (hV : P .vectorId) : Raises P (TextIo.readVec N) := by
  have h := Raises.triple N hP hD
  have h0 : ∀ α, Raises P (TextIo.raise .vectorId : Rd α) := fun _ => .raise hV
  unfold TextIo.readVec
  raises hP hD
  exact h0 _

theorem Raises.rot (hV : P .vectorId) (hR : P .rotationId) : Raises P (TextIo.readRot N) := by
  have h := Raises.row N hP hD
  have h' := Raises.vec N hP hD hV
  have h0 : ∀ α, Raises P (TextIo.raise .rotationId : Rd α) := fun _ => .raise hR
  unfold TextIo.readRot TextIo.number
  raises hP hD
  exact h0 _

theorem Raises.frame (hV : P .vectorId) (hR : P .rotationId) (hF : P .frameId) : Raises P (TextIo.readFrame N) := by
  have h := Raises.vec N hP hD hV
  have h' := Raises.rot N hP hD hV hR
  have h0 : ∀ α, Raises P (TextIo.raise .frameId : Rd α) := fun _ => .raise hF
  unfold TextIo.readFrame TextIo.number
  raises hP hD
  exact h0 _

theorem Raises.rot2 (r : Rot2D) : Raises P (TextIo.readRot2 N r) := by
  unfold TextIo.readRot2 TextIo.number
  dsimp only
  raises hP hD

theorem Raises.vec2 : Raises P (TextIo.readVec2 N) := by
  unfold TextIo.readVec2 TextIo.number
  raises hP hD

theorem Raises.reader (hV : P .vectorId) (hR : P .rotationId) (hF : P .frameId) {α : Type} {m : Rd α} (hm : FrameReader N m) : Raises P m := by
  cases hm with
  | vector => exact .vec N hP hD hV
  | twist => exact .traced ((Raises.sextuple N hP hD).bind fun _ => .pure _)
  | wrench => exact .traced ((Raises.sextuple N hP hD).bind fun _ => .pure _)
  | rotation => exact .rot N hP hD hV hR
  | frame => exact .frame N hP hD hV hR hF
  | vector2 => exact .vec2 N hP hD
  | rotation2 r => exact .rot2 N hP hD r
  | frame2 r => exact .traced ((Raises.rot2 N hP hD _).bind fun _ => (Raises.vec2 N hP hD).bind fun _ => .pure _)
end

private theorem isa_basic {k : Cls} (h : k.base = some .Error_BasicIO) : k.Isa .Error_IO := .step h (.step rfl (.refl _))
private theorem isa_frame {k : Cls} (h : k.base = some .Error_FrameIO) : k.Isa .Error_IO := .step h (.step rfl (.refl _))

/-- **C86, handlers.**  Whatever the text, `catch (Error_IO&)` takes every exception thrown by a reading function of frames_io.cpp.
Full statement: by any reading function of the library.  Missing: paths, profiles and trajectories (`C86_motion_violated`). -/
theorem C86_frames_partial (N : TextIo.NumIo) {α : Type} {m : Rd α} (hm : FrameReader N m) (s s' : IoState) (e : IoErr)
    (h : m s = .exc e s') : (ioCls e).Isa .Error_IO :=
  Raises.reader (P := fun e => (ioCls e).Isa .Error_IO) N (isa_basic rfl) (isa_basic rfl) (isa_frame rfl) (isa_frame rfl) (isa_frame rfl)
    hm s e s' h

private theorem not_isa_of {k b : Cls} (S : Cls → Prop) (hS : ∀ k, S k → ∀ k', k.base = some k' → S k') (hb : ¬ S b) (hk : S k) :
    ¬ k.Isa b := by
  intro h
  induction h with
  | refl => exact hb hk
  | step e _ ih => exact ih hb (hS _ hk _ e)

private theorem traj_not_io : ¬ Cls.Isa .Error_MotionIO_Unexpected_Traj .Error_IO := by
  refine not_isa_of (fun k => k = .Error_MotionIO_Unexpected_Traj ∨ k = .Error_MotionIO ∨ k = .Error) ?_ (by simp) (by simp)
  rintro k (rfl | rfl | rfl) k' e <;> simp only [Cls.base, Option.some.injEq, reduceCtorEq] at e <;> simp [← e]

/-- **C86 fails** for paths and trajectories: the exceptions for unknown words are called `Error_MotionIO…` but are not derived from
`Error_IO`, so a handler for input errors misses them. -/
theorem C86_motion_violated {N : TextIo.NumIo} {rnd : ℝ → ℝ} (hN : TextIo.NumOk N rnd) (d : ℕ) (rest : List Char) (tr : List String)
    (vt : List TextIo.TrajObj) : ∃ e s, TextIo.readTraj N d (TextIo.good (TextIo.writeTraj N (.composite vt) ++ rest) tr) = .exc e s ∧
      ¬ (ioCls e).Isa .Error_IO ∧ (ioCls e).Isa .Error := by
  obtain ⟨s, h⟩ := (TextIo.C73_rejected_violated hN d rest tr).1 vt
  exact ⟨_, s, h, traj_not_io, .step rfl (.step rfl (.refl _))⟩

/-- Every exception can be taken as an `Error`. -/
theorem C86_error (k : Cls) : k.Isa .Error := by
  cases k <;> first
    | exact .refl _
    | exact .step rfl (.refl _)
    | exact .step rfl (.step rfl (.refl _))
    | exact .step rfl (.step rfl (.step rfl (.refl _)))

/-- What `catch (Error_IO&)` takes: the errors of basic, frame and redundancy I/O and nothing else; the errors of chain and motion I/O
are not among them. -/
theorem C86_handler (k : Cls) : k.Isa .Error_IO ↔ k ∈ [Cls.Error_IO, .Error_BasicIO, .Error_BasicIO_File, .Error_BasicIO_Exp_Delim,
    .Error_BasicIO_Not_A_Space, .Error_BasicIO_Unexpected, .Error_BasicIO_ToBig, .Error_BasicIO_Not_Opened, .Error_FrameIO,
    .Error_Frame_Vector_Unexpected_id, .Error_Frame_Frame_Unexpected_id, .Error_Frame_Rotation_Unexpected_id, .Error_RedundancyIO,
    .Error_Redundancy_Illegal_Resolutiontype] := by
  constructor
  · intro h
    by_contra hk
    refine not_isa_of (fun k => k ∉ [Cls.Error_IO, .Error_BasicIO, .Error_BasicIO_File, .Error_BasicIO_Exp_Delim,
      .Error_BasicIO_Not_A_Space, .Error_BasicIO_Unexpected, .Error_BasicIO_ToBig, .Error_BasicIO_Not_Opened, .Error_FrameIO,
      .Error_Frame_Vector_Unexpected_id, .Error_Frame_Frame_Unexpected_id, .Error_Frame_Rotation_Unexpected_id, .Error_RedundancyIO,
      .Error_Redundancy_Illegal_Resolutiontype]) ?_ (by simp) hk h
    intro k hk k' e
    cases k <;> simp only [Cls.base, Option.some.injEq, reduceCtorEq] at e <;> subst e <;> revert hk <;> decide
  · intro h
    simp only [List.mem_cons, List.not_mem_nil, or_false] at h
    rcases h with rfl | rfl | rfl | rfl | rfl | rfl | rfl | rfl | rfl | rfl | rfl | rfl | rfl | rfl <;> first
      | exact .refl _
      | exact .step rfl (.refl _)
      | exact .step rfl (.step rfl (.refl _))

/-- Type and description of what the reading functions throw. -/
theorem C86_read_types : ∀ e n d, (e, n, d) ∈ [(IoErr.file, (1 : ℤ), "Error while reading stream"),
    (.expDelim, 2, "Expected Delimiter not encountered"), (.notASpace, 3, "Expected space,tab or newline not encountered"),
    (.unexpected, 4, "Unexpected character"), (.vectorId, 101, "Unexpected identifier, expecting a vector (explicit or ZERO)"),
    (.frameId, 102, "Unexpected identifier, expecting a Frame (explicit or DH)"),
    (.rotationId, 103, "Unexpected identifier, expecting a Rotation (explicit or EULERZYX, EULERZYZ, RPY,ROT,IDENTITY)"),
    (.unexpectedProf, 2001, "Wrong keyword while reading motion profile"), (.unexpectedTraj, 2002, "Trajectory type keyword not known"),
    (.notImplemented, 7000, "The requested object/method/function is not implemented")] →
    (Exc.default (ioCls e)).getType = some (.val n) ∧ (Exc.default (ioCls e)).description = some (some d) := by
  intro e n d h
  simp only [List.mem_cons, List.not_mem_nil, or_false, Prod.mk.injEq] at h
  rcases h with ⟨rfl, rfl, rfl⟩ | ⟨rfl, rfl, rfl⟩ | ⟨rfl, rfl, rfl⟩ | ⟨rfl, rfl, rfl⟩ | ⟨rfl, rfl, rfl⟩ | ⟨rfl, rfl, rfl⟩ |
    ⟨rfl, rfl, rfl⟩ | ⟨rfl, rfl, rfl⟩ | ⟨rfl, rfl, rfl⟩ | ⟨rfl, rfl, rfl⟩ <;> exact ⟨rfl, rfl⟩

/-- The depth of the class hierarchy is within the bound of `dispatch`: every virtual call finds an overrider. -/
theorem C86_dispatch (x : Exc) : x.getType.isSome ∧ x.description.isSome := by
  obtain ⟨k, m, t, r⟩ := x
  cases k <;> exact ⟨rfl, rfl⟩

/-! ## Infeasible roundings -/

private theorem circle_feasible (F : Frame) (c p : Vec) (R : Rot) (alpha eq : ℝ) (k : ℕ) : PathCircle.new F c p R alpha eq ≠ .notFeasible k := by
  unfold PathCircle.new
  dsimp only
  split_ifs <;> simp

private theorem norm_len_pos (v : Vec) (h : 0 < v.norm) : v.norm = v.len := by
  have hh := Vec.norm_eq v epsilon (by norm_num [epsilon])
  split_ifs at hh with hc
  · rw [hh] at h; exact absurd h (lt_irrefl _)
  · exact hh

/-- The angle between two segments. -/
def IsAngle (a b : Vec) (α : ℝ) : Prop := 0 ≤ α ∧ α ≤ Real.pi ∧ a.dot b = a.len * b.len * Real.cos α

private theorem corner_eq {a b : Vec} (ha : ¬ a.norm < 1 / 10 ^ 7) (hb : ¬ b.norm < 1 / 10 ^ 7) {α : ℝ} (h : IsAngle a b α) :
    RoundedComposite.cornerAngle a b = α := by
  have pa : 0 < a.norm := lt_of_lt_of_le (by norm_num) (not_lt.mp ha)
  have pb : 0 < b.norm := lt_of_lt_of_le (by norm_num) (not_lt.mp hb)
  have e : a.dot b / a.norm / b.norm = Real.cos α := by
    rw [h.2.2, ← norm_len_pos a pa, ← norm_len_pos b pb]
    field_simp
  unfold RoundedComposite.cornerAngle
  rw [e, min_eq_left (Real.cos_le_one α), max_eq_right (Real.neg_one_le_cos α), Real.arccos_cos h.1 h.2.1]

private theorem tan_half (α r : ℝ) : r / Real.tan ((Real.pi - α) / 2) = r * Real.tan (α / 2) := by
  have : (Real.pi - α) / 2 = Real.pi / 2 - α / 2 := by ring
  rw [this, Real.tan_pi_div_two_sub, div_inv_eq_mul]

/-- The outcome is `Error_MotionPlanning_Not_Feasible` of this type. -/
def Reports {α : Type} (o : PathRes α) (n : ℤ) : Prop := ∃ x, planExc o = some x ∧ x.cls = .Error_MotionPlanning_Not_Feasible ∧ x.getType = some (.val n)

private theorem reports_iff {α : Type} (o : PathRes α) (k : ℕ) (hk : k < 100) : Reports o (3100 + k) ↔ o = .notFeasible k := by
  constructor
  · rintro ⟨x, hx, hc, ht⟩
    cases o with
    | ok a => simp [planExc] at hx
    | nan => simp [planExc] at hx
    | tooSmall => simp only [planExc, Option.some.injEq] at hx; subst hx; cases hc
    | noPlane => simp only [planExc, Option.some.injEq] at hx; subst hx; cases hc
    | notFeasible j =>
      simp only [planExc, Option.some.injEq] at hx
      subst hx
      simp only [Exc.getType, Exc.notFeasible, dispatch, Cls.ownType] at ht
      split_ifs at ht with c
      · simp only [Option.some.injEq, Res.val.injEq] at ht
        have : j = k := by omega
        rw [this]
      · cases ht
  · rintro rfl
    refine ⟨_, rfl, rfl, ?_⟩
    simp only [Exc.getType, Exc.notFeasible, dispatch, Cls.ownType]
    rw [if_pos (by omega)]

/-- **C86, the documented types of `Path_RoundedComposite`** (path_roundedcomposite.hpp:95–102): 3101 for an equivalent radius that is not
positive; from the third point on, with the segments `a`, `b` that meet at angle `α`, 3102 and 3103 for a segment shorter than the
tolerance, 3104 for segments on top of each other, 3105 and 3106 if the rounding needs more than the first or the second segment;
the first that applies is reported, and no other type. -/
theorem C86_rounded (R : RoundedComposite) (F : Frame) (hn : 2 ≤ R.nrofpoints) (α : ℝ)
    (a b : Vec) (ha : a = R.F_base_via.p - R.F_base_start.p) (hb : b = F.p - R.F_base_via.p) (hα : IsAngle a b α) :
    let tol : ℝ := 1 / 10 ^ 7
    let d := R.radius * Real.tan (α / 2)
    let C2 := a.norm < tol
    let C3 := b.norm < tol
    let C4 := Real.pi - α < tol
    let round := tol ≤ α
    (Reports (R.add F).1 3102 ↔ C2) ∧ (Reports (R.add F).1 3103 ↔ ¬ C2 ∧ C3) ∧ (Reports (R.add F).1 3104 ↔ ¬ C2 ∧ ¬ C3 ∧ C4) ∧
    (Reports (R.add F).1 3105 ↔ ¬ C2 ∧ ¬ C3 ∧ ¬ C4 ∧ round ∧ a.len ≤ d) ∧
    (Reports (R.add F).1 3106 ↔ ¬ C2 ∧ ¬ C3 ∧ ¬ C4 ∧ round ∧ d < a.len ∧ b.len ≤ d) ∧
    ∀ k : ℕ, k < 100 → Reports (R.add F).1 (3100 + k) → 2 ≤ k ∧ k ≤ 6 := by
  intro tol d C2 C3 C4 round
  have r (k : ℕ) (hk : k < 100) := reports_iff (R.add F).1 k hk
  rw [show (3102 : ℤ) = 3100 + (2 : ℕ) by norm_num, show (3103 : ℤ) = 3100 + (3 : ℕ) by norm_num, show (3104 : ℤ) = 3100 + (4 : ℕ) by norm_num,
    show (3105 : ℤ) = 3100 + (5 : ℕ) by norm_num, show (3106 : ℤ) = 3100 + (6 : ℕ) by norm_num,
    r 2 (by omega), r 3 (by omega), r 4 (by omega), r 5 (by omega), r 6 (by omega)]
  have hlast : (∀ k : ℕ, k < 100 → Reports (R.add F).1 (3100 + k) → 2 ≤ k ∧ k ≤ 6) ↔ ∀ k : ℕ, k < 100 → (R.add F).1 = .notFeasible k → 2 ≤ k ∧ k ≤ 6 :=
    forall_congr' fun k => forall_congr' fun hk => by rw [r k hk]
  rw [hlast]
  clear r hlast
  unfold RoundedComposite.add
  rw [if_neg (by omega), if_neg (by omega)]
  dsimp only
  rw [← ha, ← hb]
  by_cases c2 : C2
  · have c2' : a.norm < 1 / 10 ^ 7 := c2
    rw [if_pos c2']
    simp [c2]
    rintro k - rfl; omega
  have c2' : ¬ a.norm < 1 / 10 ^ 7 := c2
  rw [if_neg c2']
  by_cases c3 : C3
  · have c3' : b.norm < 1 / 10 ^ 7 := c3
    rw [if_pos c3']
    simp [c2, c3]
    rintro k - rfl; omega
  have c3' : ¬ b.norm < 1 / 10 ^ 7 := c3
  rw [if_neg c3', corner_eq c2' c3' hα]
  by_cases c4 : C4
  · have c4' : Real.pi - α < 1 / 10 ^ 7 := c4
    rw [if_pos c4']
    simp [c2, c3, c4]
    rintro k - rfl; omega
  have c4' : ¬ Real.pi - α < 1 / 10 ^ 7 := c4
  rw [if_neg c4']
  by_cases c5 : round
  swap
  · rw [if_pos (not_le.mp c5 : α < 1 / 10 ^ 7)]
    simp [c2, c3, c4, c5]
  rw [if_neg (not_lt.mpr c5 : ¬ α < 1 / 10 ^ 7), tan_half, norm_len_pos a (lt_of_lt_of_le (by norm_num) (not_lt.mp c2')),
    norm_len_pos b (lt_of_lt_of_le (by norm_num) (not_lt.mp c3'))]
  by_cases c6 : a.len ≤ d
  · rw [if_pos (show R.radius * Real.tan (α / 2) ≥ a.len from c6)]
    simp [c2, c3, c4, c5, c6, not_lt.mpr c6]
    rintro k - rfl; omega
  rw [if_neg (show ¬ R.radius * Real.tan (α / 2) ≥ a.len from c6)]
  by_cases c7 : b.len ≤ d
  · rw [if_pos (show R.radius * Real.tan (α / 2) ≥ b.len from c7)]
    simp [c2, c3, c4, c5, c6, c7, not_le.mp c6]
    rintro k - rfl; omega
  rw [if_neg (show ¬ R.radius * Real.tan (α / 2) ≥ b.len from c7)]
  have key : ∀ k o, o = RoundedComposite.corner R.radius R.eqradius α (R.radius * Real.tan (α / 2)) R.F_base_start R.F_base_via F →
      (match o with
      | none => ((.nan, R) : PathRes Unit × RoundedComposite)
      | some (l, c, e) =>
        match c with
        | .ok c => (.ok (), { R with comp := (R.comp.add l.toPath).add c.toPath, F_base_start := e, F_base_via := F,
                                     nrofpoints := R.nrofpoints + 1 })
        | .tooSmall => (.tooSmall, { R with comp := R.comp.add l.toPath })
        | .noPlane => (.noPlane, { R with comp := R.comp.add l.toPath })
        | .notFeasible k => (.notFeasible k, { R with comp := R.comp.add l.toPath })
        | .nan => (.nan, { R with comp := R.comp.add l.toPath })).1 ≠ .notFeasible k := by
    intro k o ho
    cases o with
    | none => simp
    | some t =>
      obtain ⟨l, c, e⟩ := t
      unfold RoundedComposite.corner at ho
      dsimp only at ho
      split at ho
      · simp only [Option.some.injEq, Prod.mk.injEq] at ho
        have hc := ho.2.1
        cases c with
        | notFeasible j => exact absurd hc.symm (circle_feasible _ _ _ _ _ _ j)
        | _ => simp
      · cases ho
  have k' := fun k => key k _ rfl
  refine ⟨?_, ?_, ?_, ?_, ?_, ?_⟩
  · exact iff_of_false (k' 2) c2
  · exact iff_of_false (k' 3) (fun h => c3 h.2)
  · exact iff_of_false (k' 4) (fun h => c4 h.2.2)
  · exact iff_of_false (k' 5) (fun h => c6 h.2.2.2.2)
  · exact iff_of_false (k' 6) (fun h => c7 h.2.2.2.2.2)
  · exact fun k _ h => absurd h (k' k)

/-- The constructor reports 3101 exactly for an equivalent radius that is not positive; the first two points are always accepted. -/
theorem C86_rounded_new (radius eqradius : ℝ) (R : RoundedComposite) (F : Frame) (hn : R.nrofpoints < 2) :
    (Reports (RoundedComposite.new radius eqradius) 3101 ↔ eqradius ≤ 0) ∧ ∃ u, (R.add F).1 = .ok u := by
  constructor
  · rw [show (3101 : ℤ) = 3100 + (1 : ℕ) by norm_num, reports_iff _ 1 (by omega)]
    unfold RoundedComposite.new
    split_ifs with h <;> simp [h]
  · unfold RoundedComposite.add
    by_cases h0 : R.nrofpoints = 0
    · rw [if_pos h0]; exact ⟨(), rfl⟩
    · rw [if_neg h0, if_pos (by omega)]; exact ⟨(), rfl⟩

/-- The constructor of a circle reports 3001 exactly for a start point closer than `epsilon` to the centre, with its own description, and
otherwise at most 3002. -/
theorem C86_circle (F : Frame) (c p : Vec) (R : Rot) (alpha eq : ℝ) :
    ((F.p - c).norm < epsilon → ∃ x, planExc (PathCircle.new F c p R alpha eq) = some x ∧ x.getType = some (.val 3001) ∧
      x.description = some (some "Circle : radius is to small")) ∧
    (epsilon ≤ (F.p - c).norm → ∀ x, planExc (PathCircle.new F c p R alpha eq) = some x → x.getType = some (.val 3002) ∧
      x.description = some (some "Circle : Plane for motion is not properly defined")) := by
  have h := C61_too_small F c p R alpha eq
  constructor
  · intro hs
    rw [h.mpr hs]
    exact ⟨_, rfl, rfl, rfl⟩
  · intro hs x hx
    have h1 : PathCircle.new F c p R alpha eq ≠ .tooSmall := fun e => absurd (h.mp e) (not_lt.mpr hs)
    have h2 := circle_feasible F c p R alpha eq
    cases e : PathCircle.new F c p R alpha eq with
    | ok a => rw [e] at hx; simp [planExc] at hx
    | nan => rw [e] at hx; simp [planExc] at hx
    | tooSmall => exact absurd e h1
    | notFeasible k => exact absurd e (h2 k)
    | noPlane =>
      rw [e] at hx
      simp only [planExc, Option.some.injEq] at hx
      subst hx
      exact ⟨rfl, rfl⟩

/-- Non-vacuity of `C86_types`: these two classes are leaves. -/
example : Leaf .Error_BasicIO_ToBig ∧ Leaf .Error_Not_Implemented := by
  constructor <;> (intro k; cases k <;> simp [Cls.base])

/-- Non-vacuity of `C86_frames_partial`: a stream at its end. -/
example (N : TextIo.NumIo) : ∃ s s', TextIo.readVec N s = .exc .file s' ∧ (ioCls .file).Isa .Error_BasicIO :=
  ⟨⟨⟨[], true, false⟩, []⟩, _, rfl, .step rfl (.refl _)⟩

/-- Non-vacuity of `C86_rounded`: a right angle between segments of length 1 and a radius of 2 is reported as 3105. -/
example : ∃ (R : RoundedComposite) (F : Frame), 2 ≤ R.nrofpoints ∧
    IsAngle (R.F_base_via.p - R.F_base_start.p) (F.p - R.F_base_via.p) (Real.pi / 2) ∧ Reports (R.add F).1 3105 := by
  let R : RoundedComposite := ⟨.new, 2, 1, 1, ⟨1, ⟨1, 0, 0⟩⟩, 2⟩
  let F : Frame := ⟨1, ⟨1, 1, 0⟩⟩
  have ha : R.F_base_via.p - R.F_base_start.p = ⟨1, 0, 0⟩ := by ext <;> simp [R]
  have hb : F.p - R.F_base_via.p = ⟨0, 1, 0⟩ := by ext <;> simp [R, F]
  have la : (⟨1, 0, 0⟩ : Vec).norm = 1 := by norm_num [Vec.norm, epsilon]
  have lb : (⟨0, 1, 0⟩ : Vec).norm = 1 := by norm_num [Vec.norm, epsilon]
  have la' := norm_len_pos ⟨1, 0, 0⟩ (by rw [la]; norm_num)
  have lb' := norm_len_pos ⟨0, 1, 0⟩ (by rw [lb]; norm_num)
  have h : IsAngle (⟨1, 0, 0⟩ : Vec) ⟨0, 1, 0⟩ (Real.pi / 2) :=
    ⟨by positivity, by linarith [Real.pi_pos], by simp [Vec.dot]⟩
  refine ⟨R, F, le_refl 2, by rw [ha, hb]; exact h, ?_⟩
  refine ((C86_rounded R F (le_refl 2) (Real.pi / 2) _ _ ha.symm hb.symm h).2.2.2.1).mpr ?_
  rw [la, lb, ← la', la, show Real.pi / 2 / 2 = Real.pi / 4 by ring, Real.tan_pi_div_four]
  have := Real.two_le_pi
  refine ⟨by norm_num, by norm_num, ?_, ?_, by norm_num [R]⟩ <;> linarith

end KDL.Err
