import Verif.Props.MotionIo

/-! C73, further: circles that cannot be constructed from their text, the text of composite trajectories, and white space. -/

namespace KDL.TextIo
open PathCircle (deg2rad)

variable {N : NumIo} {rnd : ℝ → ℝ}

/-- **C73, circles that do not exist.**  Where the constructor finds the rounded numbers of a written circle to be too small a circle or
without a plane, `Path::Read` throws a motion planning error, behind the closing bracket and with the trace as it was. -/
theorem C73_circle_rejected (hN : NumOk N rnd) (c : PathCircle) (h : rereadCircle rnd c = .tooSmall ∨ rereadCircle rnd c = .noPlane)
    (d : ℕ) (b rest : List Char) (hb : Sp b) (tr : List String) :
    readPath N (d + 1) (good (b ++ (writePath N (.circle c) ++ rest)) tr) = .exc .planning (good ('\n' :: rest) tr) := by
  rw [writePath, text_circle, readPath_succ]
  have key := Reads.traced (d := "Path::Read") (reads_open "CIRCLE".toList (by decide) 64 hb.blank
    "CIRCLE".toList (by decide) (by decide) (by decide) (Sp.blank (b := "   ".toList) (sp_of (by decide))) _ (solid_frame _ _)
    (r := '\n' :: rest) (f := fun w => bodyPath N d w) (y := Sum.inr (rereadCircle rnd c)) (by
      rw [body_circle]
      exact Reads.traced ((reads_circle hN _ _ _ _ _ _ (b := []) (sp_of (by decide)) _).bind (Reads.pure _ _))))
  refine (bind_ok (key tr)).trans ?_
  dsimp only
  rcases h with h | h <;> rw [h] <;> rfl

/-- **C73 fails for circles, to the point of losing them.**  Since `Path_Circle::Write` writes a direction where `Path::Read` expects a
point, a half circle around `(1,1,0)`, all coordinates of which are written exactly, is not read at all. -/
theorem C73_circle_lost_violated (hN : NumOk N rnd) (h0 : rnd 0 = 0) (h1 : rnd 1 = 1) (h2 : rnd 2 = 2) :
    ∃ C, PathCircle.new ⟨1, ⟨2, 1, 0⟩⟩ ⟨1, 1, 0⟩ ⟨1, 2, 0⟩ 1 Real.pi 1 = .ok C ∧
      ∀ (d : ℕ) (b rest : List Char) (tr : List String), Sp b →
        readPath N (d + 1) (good (b ++ (writePath N (.circle C) ++ rest)) tr) = .exc .planning (good ('\n' :: rest) tr) := by
  have hC := circle_new_one ⟨2, 1, 0⟩ ⟨1, 1, 0⟩ ⟨1, 2, 0⟩ ⟨1, 0, 0⟩ ⟨0, 1, 0⟩ ⟨0, 0, 1⟩ Real.pi 1 Real.pi_pos
    (by rw [show (⟨2, 1, 0⟩ : Vec) - ⟨1, 1, 0⟩ = ⟨1, 0, 0⟩ by ext <;> simp; norm_num, circle_nX])
    (by rw [show (⟨1, 2, 0⟩ : Vec) - ⟨1, 1, 0⟩ = ⟨0, 1, 0⟩ by ext <;> simp; norm_num, circle_nY])
    (by rw [show ((⟨1, 0, 0⟩ : Vec) * (⟨0, 1, 0⟩ : Vec)) = ⟨0, 0, 1⟩ by ext <;> simp, circle_nZ])
  have hs := C61_start _ _ _ _ _ _ _ hC
  refine ⟨_, hC, fun d b rest tr hb => C73_circle_rejected hN _ (.inr ?_) d b rest hb tr⟩
  rw [rereadCircle, hs]
  dsimp only
  have hu : (Rot.ofCols ⟨1, 0, 0⟩ ((⟨0, 0, 1⟩ : Vec) * (⟨1, 0, 0⟩ : Vec)) ⟨0, 0, 1⟩).unitY = ⟨0, 1, 0⟩ := by
    ext <;> simp [Rot.unitY, Rot.ofCols]
  have hR : rndRot rnd 1 = 1 := by ext <;> simp [rndRot, h0, h1]
  have hF : rndFrame rnd ⟨1, ⟨2, 1, 0⟩⟩ = ⟨1, ⟨2, 1, 0⟩⟩ := by rw [rndFrame, hR]; simp [rndVec, h0, h1, h2]
  have hv : rndVec rnd ⟨0, 1, 0⟩ = ⟨0, 1, 0⟩ := by simp [rndVec, h0, h1]
  have hc : rndVec rnd ⟨1, 1, 0⟩ = ⟨1, 1, 0⟩ := by simp [rndVec, h0, h1]
  rw [hu, hF, hv, hc]
  have he : ¬ (1 : ℝ) < epsilon := by norm_num [epsilon]
  have e0 : (0 : ℝ) < epsilon := by norm_num [epsilon]
  unfold PathCircle.new
  dsimp only
  rw [show (⟨2, 1, 0⟩ : Vec) - ⟨1, 1, 0⟩ = ⟨1, 0, 0⟩ by ext <;> simp; norm_num, circle_nX,
    show (⟨0, 1, 0⟩ : Vec) - ⟨1, 1, 0⟩ = ⟨-1, 0, 0⟩ by ext <;> simp, circle_nXm]
  dsimp only
  rw [if_neg he, show ((⟨1, 0, 0⟩ : Vec) * (⟨-1, 0, 0⟩ : Vec)) = 0 by ext <;> simp, Vec.normalize_zero, if_pos e0]

/-- **C73, text of composite trajectories** (which cannot be read back, `C73_rejected_violated`): the number of parts, then the texts of
all parts in order. -/
theorem C73_written (vt : List TrajObj) :
    writeTraj N (.composite vt) = "COMPOSITE[ ".toList ++ N.fmtInt vt.length ++ "\n".toList ++ (vt.map (writeTraj N)).flatten ++ "]\n".toList := by
  have h : ∀ l : List TrajObj, writeTrajs N l = (l.map (writeTraj N)).flatten := by
    intro l
    induction l with
    | nil => rw [writeTrajs, List.map_nil, List.flatten_nil]
    | cons t l ih => rw [writeTrajs, ih, List.map_cons, List.flatten_cons]
  rw [writeTraj, h]
  unfold writeTrajComposite
  exact Eq.refl _

/-- **C73, white space.**  A number is read behind any of the six characters that `isspace` accepts. -/
theorem C73_space (hN : NumOk N rnd) (sp l : List Char) (x : ℝ) (hl : Stops l)
    (hsp : ∀ c ∈ sp, c ∈ [' ', '\n', '\t', '\x0b', '\x0c', '\r']) : Reads (number N) (sp ++ (N.fmt x ++ l)) (rnd x) l := by
  refine reads_number hN sp l x (fun c hc => ?_) hl
  have := hsp c hc
  simp only [List.mem_cons, List.not_mem_nil, or_false] at this
  rcases this with rfl | rfl | rfl | rfl | rfl | rfl <;> decide

/-- Non-vacuity: the white space may be a carriage return, followed by a number and a bracket. -/
example : (∀ c ∈ ['\r', ' '], c ∈ [' ', '\n', '\t', '\x0b', '\x0c', '\r']) ∧ Stops [']'] := ⟨by decide, stops_cons ']' _ (by decide)⟩

end KDL.TextIo
