import Verif.Props.FramesIo
import Verif.Props.PathLine
import Verif.Props.PathCircle
import Verif.Props.RoundedComposite

/-!
# C73: writing and reading paths, velocity profiles and trajectories

What `Write` has put into a text is what `Read` makes of it.  `reread rnd p` is the path one expects: the same construction
with every number rounded by the formatting.
-/

namespace KDL.TextIo
open PathCircle (deg2rad)

variable {N : NumIo} {rnd : ℝ → ℝ}

/-! ## Specification -/

/-- Integers that fit an `int`. -/
def inInt (n : ℤ) : Bool := decide (-2 ^ 31 ≤ n ∧ n < 2 ^ 31)

/-- The circle constructed from the rounded values of what `Path_Circle::Write` writes. -/
noncomputable def rereadCircle (rnd : ℝ → ℝ) (c : PathCircle) : PathRes PathCircle :=
  PathCircle.new (rndFrame rnd (c.pos 0)) (rndVec rnd c.F_base_center.p) (rndVec rnd c.F_base_center.M.unitY)
    (rndRot rnd (c.orient.pos (c.pathlength * c.scalerot))) (rnd (c.pathlength * c.scalelin / c.radius / deg2rad) * deg2rad)
    (rnd c.eqradius)

/-- The parts of a rounded composite. -/
noncomputable def rereadParts (rnd : ℝ → ℝ) : List (PathLine ⊕ PathCircle) → Option (List PathObj)
  | [] => some []
  | .inl l :: ps => (rereadParts rnd ps).map (.line (PathLine.ofFrames (rndFrame rnd ⟨l.orient.pos 0, l.V_base_start⟩)
      (rndFrame rnd ⟨l.orient.pos (l.pathlength * l.scalerot), l.V_base_end⟩) (rnd l.eqradius)) :: ·)
  | .inr c :: ps => match rereadCircle rnd c with
    | .ok c' => (rereadParts rnd ps).map (.circle c' :: ·)
    | _ => none

mutual
/-- The path one expects to read; `none` if the constructor of a circle would fail or a count does not fit an `int`. -/
noncomputable def reread (rnd : ℝ → ℝ) : PathObj → Option PathObj
  | .point F => some (.point (rndFrame rnd F))
  | .line l => some (.line (PathLine.ofFrames (rndFrame rnd ⟨l.orient.pos 0, l.V_base_start⟩)
      (rndFrame rnd ⟨l.orient.pos (l.pathlength * l.scalerot), l.V_base_end⟩) (rnd l.eqradius)))
  | .circle c => match rereadCircle rnd c with
    | .ok c' => some (.circle c')
    | _ => none
  | .composite gv => if inInt gv.length then (rereadAll rnd gv).map .composite else none
  | .cyclic g times => if inInt times then (reread rnd g).map (.cyclic · times) else none
  | .rounded parts _ => if inInt parts.length then (rereadParts rnd parts).map .composite else none
/-- The parts of a composite. -/
noncomputable def rereadAll (rnd : ℝ → ℝ) : List PathObj → Option (List PathObj)
  | [] => some []
  | p :: ps => match reread rnd p, rereadAll rnd ps with
    | some q, some qs => some (q :: qs)
    | _, _ => none
end

mutual
/-- Nesting of a path. -/
def PathObj.depth : PathObj → ℕ
  | .composite gv => depths gv + 1
  | .cyclic g _ => g.depth + 1
  | .rounded _ _ => 1
  | _ => 0
/-- Greatest nesting of the parts. -/
def depths : List PathObj → ℕ
  | [] => 0
  | p :: ps => max p.depth (depths ps)
end

/-! ## Proofs -/

/-- Spaces, tabs and newlines. -/
def Sp (b : List Char) : Prop := ∀ c ∈ b, gap c = true

theorem Sp.blank {b : List Char} (h : Sp b) : Blank b := by
  induction b with
  | nil => exact .nil
  | cons c b ih => exact .space c b (h c (by simp)) (ih fun d hd => h d (by simp [hd]))

theorem Sp.isSpace {b : List Char} (h : Sp b) : ∀ c ∈ b, isSpace c = true := by
  intro c hc
  have := h c hc
  simp only [gap, Bool.or_eq_true, decide_eq_true_eq] at this
  rcases this with (rfl | rfl) | rfl <;> decide

theorem Toks.spaces {b : List Char} (hb : Sp b) {t : List Char} {ts : List (List Char)} {l : List Char}
    (h : Toks (t :: ts) l) : Toks (t :: ts) (b ++ l) := by
  induction b with
  | nil => exact h
  | cons c b ih => exact .sp c (hb c (by simp)) (ih fun d hd => hb d (by simp [hd]))

theorem reads_writeFrame (hN : NumOk N rnd) {b : List Char} (hb : Sp b) (F : Frame) (rest : List Char) :
    Reads (readFrame N) (b ++ (writeFrame N F ++ rest)) (rndFrame rnd F) rest := by
  rw [← List.append_assoc]
  exact C67_frame_partial hN F _ rest (Toks.spaces hb (toks_writeFrame F))

theorem reads_writeVec (hN : NumOk N rnd) {b : List Char} (hb : Sp b) (v : Vec) (rest : List Char) :
    Reads (readVec N) (b ++ (writeVec N v ++ rest)) (rndVec rnd v) rest := by
  rw [← List.append_assoc]
  exact C67_vector_partial hN v _ rest (Toks.spaces hb (toks_writeVec v))

theorem reads_writeRot (hN : NumOk N rnd) {b : List Char} (hb : Sp b) (R : Rot) (rest : List Char) :
    Reads (readRot N) (b ++ (writeRot N R ++ rest)) (rndRot rnd R) rest := by
  rw [← List.append_assoc]
  exact C67_rotation_partial hN R _ rest (Toks.spaces hb (toks_writeRot R))

/-- word, opening bracket -/
theorem reads_open (W : List Char) (hW : ∀ c ∈ W, c ∉ ['[', ']', '#', '/', ' ', '\n', '\t', '\x00']) (n : ℕ)
    {b : List Char} (hb : Blank b) (w : List Char) (hw : w.map Char.toUpper = W) (hne : W ≠ []) (hlen : W.length < n)
    {b' : List Char} (hb' : Blank b') (l : List Char) (hl : SolidHead l) {β : Type} {f : List Char → Rd β} {y : β}
    {r : List Char} (h : Reads (f W) l y r) :
    Reads (eatWord ['['] n >>= fun w => eat '[' >>= fun _ => f w) (b ++ (w ++ ('[' :: (b' ++ l)))) y r := by
  have hl' : w.length = W.length := by rw [← hw]; simp
  have h1 := C67_word_partial ['['] n b w [] hb .nil '[' (b' ++ l) (solid_of (by simp))
    (wordChar_of_upper hw hW _ (by simp)) (by rintro rfl; exact hne (by simpa using hw.symm)) (by omega) (Or.inr rfl)
  rw [hw] at h1
  exact h1.bind ((reads_eat (b := []) .nil hb' '[' (solid_of (by simp)) l hl).bind h)

theorem sp_of {s : List Char} (h : s.all gap = true) : Sp s := fun c hc => List.all_eq_true.1 h c hc

theorem reads_orient {b : List Char} (hb : Sp b) (rest : List Char) :
    Reads readOrient (b ++ (writeOrient ++ rest)) () (" \n".toList ++ rest) := by
  refine Reads.traced ?_
  have h : Reads (traced "SINGLEAXIS" (eatEnd ']')) (']' :: (" \n".toList ++ rest)) () (" \n".toList ++ rest) :=
    Reads.traced (reads_eatEnd (b := []) .nil ']' (solid_of (by simp)) _)
  exact reads_open "SINGLEAXIS".toList (by decide) 64 hb.blank "SingleAxis".toList (by decide) (by decide) (by decide)
    (b' := []) .nil (']' :: (" \n".toList ++ rest)) (solid_cons _ _ (solid_of (by simp)))
    (f := fun w => if w = "SINGLEAXIS".toList then traced "SINGLEAXIS" (eatEnd ']')
      else if w = "THREEAXIS".toList then do ioTrace "THREEAXIS"; raise .notImplemented
      else if w = "TWOAXIS".toList then do ioTrace "TWOAXIS"; raise .notImplemented
      else raise .unexpectedTraj) (by rw [if_pos rfl]; exact h)

theorem reads_num (hN : NumOk N rnd) {b : List Char} (hb : Sp b) (x : ℝ) (l : List Char) (hl : Stops l) :
    Reads (number N) (b ++ (N.fmt x ++ l)) (rnd x) l := reads_number hN b l x hb.isSpace hl

theorem reads_close (rest : List Char) : Reads (eatEnd ']') (']' :: rest) () rest :=
  reads_eatEnd (b := []) .nil ']' (solid_of (by simp)) rest

theorem reads_line (hN : NumOk N rnd) (A B : Frame) (x : ℝ) {b : List Char} (hb : Sp b) (rest : List Char) :
    Reads (readLine N) (b ++ (writeFrame N A ++ ("\n  ".toList ++ (writeFrame N B ++ ("\n  ".toList ++ (writeOrient ++
      ("  ".toList ++ (N.fmt x ++ ']' :: rest)))))))) (.line (PathLine.ofFrames (rndFrame rnd A) (rndFrame rnd B) (rnd x))) rest := by
  refine (reads_writeFrame hN hb A _).bind ((reads_writeFrame hN (sp_of (by decide)) B _).bind
    ((reads_orient (sp_of (by decide)) _).bind ?_))
  rw [← List.append_assoc]
  exact (reads_num hN (sp_of (by decide)) x _ (stops_cons ']' _ (by decide))).bind ((reads_close _).bind (Reads.pure _ _))

theorem reads_circle (hN : NumOk N rnd) (F : Frame) (c p : Vec) (R : Rot) (alpha x : ℝ) {b : List Char} (hb : Sp b)
    (rest : List Char) :
    Reads (readCircle N) (b ++ (writeFrame N F ++ ("\n  ".toList ++ (writeVec N c ++ ("\n  ".toList ++ (writeVec N p ++
      ("\n  ".toList ++ (writeRot N R ++ ("\n  ".toList ++ (N.fmt alpha ++ ("\n  ".toList ++ (writeOrient ++
      ("  ".toList ++ (N.fmt x ++ ']' :: rest))))))))))))))
      (PathCircle.new (rndFrame rnd F) (rndVec rnd c) (rndVec rnd p) (rndRot rnd R) (rnd alpha * deg2rad) (rnd x)) rest := by
  refine (reads_writeFrame hN hb F _).bind ((reads_writeVec hN (sp_of (by decide)) c _).bind
    ((reads_writeVec hN (sp_of (by decide)) p _).bind ((reads_writeRot hN (sp_of (by decide)) R _).bind
    ((reads_num hN (sp_of (by decide)) alpha _ (stops_cons '\n' _ (by decide))).bind
    ((reads_orient (b := "\n  ".toList) (sp_of (by decide)) _).bind ?_)))))
  rw [← List.append_assoc]
  exact (reads_num hN (sp_of (by decide)) x _ (stops_cons ']' _ (by decide))).bind ((reads_close _).bind (Reads.pure _ _))

/-- A frame starts with a bracket. -/
theorem solid_frame (F : Frame) (l : List Char) : SolidHead (writeFrame N F ++ l) :=
  ⟨'[', _, rfl, solid_of (by simp)⟩

/-- The body of `Path::Read` behind the opening bracket, as a function of the word. -/
noncomputable def bodyPath (N : NumIo) (depth : ℕ) (w : List Char) : Rd (PathObj ⊕ PathRes PathCircle) :=
  if w = "POINT".toList then traced "POINT" do
    let p ← readPoint N
    pure (Sum.inl p)
  else if w = "LINE".toList then traced "LINE" do
    let p ← readLine N
    pure (Sum.inl p)
  else if w = "CIRCLE".toList then traced "CIRCLE" do
    let c ← readCircle N
    pure (Sum.inr c)
  else if w = "ROUNDEDCOMPOSITE".toList then traced "ROUNDEDCOMPOSITE" do
    let p ← readRounded N
    pure (Sum.inl p)
  else if w = "COMPOSITE".toList then traced "COMPOSITE" do
    let size ← integer N
    let gv ← readMany (readPath N depth) size.toNat
    eatEnd ']'
    pure (Sum.inl (.composite gv))
  else if w = "CYCLIC_CLOSED".toList then traced "CYCLIC_CLOSED" do
    let g ← readPath N depth
    let times ← integer N
    eatEnd ']'
    pure (Sum.inl (.cyclic g times))
  else raise .unexpectedTraj

theorem readPath_succ (depth : ℕ) : readPath N (depth + 1) = (do
    let r ← traced "Path::Read" (eatWord ['['] 64 >>= fun w => eat '[' >>= fun _ => bodyPath N depth w)
    match r with
    | .inl p => pure p
    | .inr c => ofCircle c) := rfl

theorem reads_pathI {d : ℕ} {W : List Char} (hW : ∀ c ∈ W, c ∉ ['[', ']', '#', '/', ' ', '\n', '\t', '\x00'])
    (hw : W.map Char.toUpper = W) (hne : W ≠ []) (hlen : W.length < 64) {b b' : List Char} (hb : Sp b) (hb' : Sp b')
    {l r : List Char} (hl : SolidHead l) {q : PathObj} (h : Reads (bodyPath N d W) l (Sum.inl q) r) :
    Reads (readPath N (d + 1)) (b ++ (W ++ ('[' :: (b' ++ l)))) q r := by
  rw [readPath_succ]
  exact (Reads.traced (reads_open W hW 64 hb.blank W hw hne hlen hb'.blank l hl h)).bind (Reads.pure q r)

theorem body_point (d : ℕ) : bodyPath N d "POINT".toList = traced "POINT" (readPoint N >>= fun p => pure (Sum.inl p)) := by
  rw [bodyPath, if_pos rfl]
theorem body_line (d : ℕ) : bodyPath N d "LINE".toList = traced "LINE" (readLine N >>= fun p => pure (Sum.inl p)) := by
  rw [bodyPath, if_neg (by decide), if_pos rfl]
theorem body_circle (d : ℕ) : bodyPath N d "CIRCLE".toList = traced "CIRCLE" (readCircle N >>= fun p => pure (Sum.inr p)) := by
  rw [bodyPath, if_neg (by decide), if_neg (by decide), if_pos rfl]
theorem body_composite (d : ℕ) : bodyPath N d "COMPOSITE".toList = traced "COMPOSITE" (integer N >>= fun size =>
    readMany (readPath N d) size.toNat >>= fun gv => eatEnd ']' >>= fun _ => pure (Sum.inl (.composite gv))) := by
  rw [bodyPath, if_neg (by decide), if_neg (by decide), if_neg (by decide), if_neg (by decide), if_pos rfl]
theorem body_cyclic (d : ℕ) : bodyPath N d "CYCLIC_CLOSED".toList = traced "CYCLIC_CLOSED" (readPath N d >>= fun g =>
    integer N >>= fun times => eatEnd ']' >>= fun _ => pure (Sum.inl (.cyclic g times))) := by
  rw [bodyPath, if_neg (by decide), if_neg (by decide), if_neg (by decide), if_neg (by decide), if_neg (by decide),
    if_pos rfl]

theorem solid_letter : ∀ c ∈ ['P', 'L', 'C', 'D', 'T'], Solid c := fun c hc => by
  simp only [List.mem_cons, List.not_mem_nil, or_false] at hc
  rcases hc with rfl | rfl | rfl | rfl | rfl <;> exact ⟨by decide, by decide, by decide⟩

theorem lit_close : "]\n".toList = [']', '\n'] := by decide
theorem lit_point : "POINT[ ".toList = "POINT".toList ++ '[' :: " ".toList := by decide
theorem lit_line : "LINE[ ".toList = "LINE".toList ++ '[' :: " ".toList := by decide
theorem lit_circle : "CIRCLE[ ".toList = "CIRCLE".toList ++ '[' :: " ".toList := by decide
theorem lit_composite : "COMPOSITE[ \n".toList = "COMPOSITE".toList ++ '[' :: " \n".toList := by decide
theorem lit_cyclic : "CYCLIC_CLOSED[ ".toList = "CYCLIC_CLOSED".toList ++ '[' :: " ".toList := by decide
theorem lit_3 : "   ".toList = " ".toList ++ "  ".toList := by decide
theorem lit_n2 : "\n  ".toList = "\n".toList ++ "  ".toList := by decide
theorem lit_n3 : " \n   ".toList = " \n".toList ++ "   ".toList := by decide

theorem text_point (F : Frame) (rest : List Char) : writePoint N F ++ rest =
    "POINT".toList ++ ('[' :: (" ".toList ++ (writeFrame N F ++ (']' :: '\n' :: rest)))) := by
  unfold writePoint
  simp only [lit_close, lit_point, List.append_assoc, List.cons_append, List.nil_append]

theorem text_line (l : PathLine) (rest : List Char) : writeLine N l ++ rest = "LINE".toList ++ ('[' :: ("   ".toList ++
    (writeFrame N ⟨l.orient.pos 0, l.V_base_start⟩ ++ ("\n  ".toList ++
    (writeFrame N ⟨l.orient.pos (l.pathlength * l.scalerot), l.V_base_end⟩ ++ ("\n  ".toList ++ (writeOrient ++
    ("  ".toList ++ (N.fmt l.eqradius ++ (']' :: '\n' :: rest)))))))))) := by
  unfold writeLine
  simp only [lit_close, lit_line, lit_3, lit_n2, List.append_assoc, List.cons_append, List.nil_append]

theorem text_circle (c : PathCircle) (rest : List Char) : writeCircle N c ++ rest = "CIRCLE".toList ++ ('[' :: ("   ".toList ++
    (writeFrame N (c.pos 0) ++ ("\n  ".toList ++ (writeVec N c.F_base_center.p ++ ("\n  ".toList ++
    (writeVec N c.F_base_center.M.unitY ++ ("\n  ".toList ++ (writeRot N (c.orient.pos (c.pathlength * c.scalerot)) ++
    ("\n  ".toList ++ (N.fmt (c.pathlength * c.scalelin / c.radius / deg2rad) ++ ("\n  ".toList ++ (writeOrient ++
    ("  ".toList ++ (N.fmt c.eqradius ++ (']' :: '\n' :: rest)))))))))))))))) := by
  unfold writeCircle
  simp only [lit_close, lit_circle, lit_3, lit_n2, List.append_assoc, List.cons_append, List.nil_append]

theorem text_composite (n : ℕ) (parts rest : List Char) : writeComposite N n parts ++ rest =
    "COMPOSITE".toList ++ ('[' :: (" \n   ".toList ++ (N.fmtInt n ++ ("\n".toList ++ (parts ++ (']' :: '\n' :: rest)))))) := by
  unfold writeComposite
  simp only [lit_close, lit_composite, lit_n3, List.append_assoc, List.cons_append, List.nil_append]

theorem text_cyclic (geom : List Char) (times : ℤ) (rest : List Char) : writeCyclic N geom times ++ rest =
    "CYCLIC_CLOSED".toList ++ ('[' :: ("   ".toList ++ (geom ++ ("\n  ".toList ++ (N.fmtInt times ++ ("\n".toList ++
      (']' :: '\n' :: rest))))))) := by
  unfold writeCyclic
  simp only [lit_close, lit_cyclic, lit_3, lit_n2, List.append_assoc, List.cons_append, List.nil_append]

theorem solid_head (W l : List Char) (h : ∃ c r, W = c :: r ∧ c ∈ ['P', 'L', 'C', 'D', 'T']) : SolidHead (W ++ l) := by
  obtain ⟨c, r, rfl, hc⟩ := h
  exact ⟨c, r ++ l, rfl, solid_letter c hc⟩

theorem writePath_head (p : PathObj) (l : List Char) : SolidHead (writePath N p ++ l) := by
  cases p with
  | point F => rw [writePath, text_point]; exact solid_head _ _ ⟨'P', "OINT".toList, by decide, by decide⟩
  | line l => rw [writePath, text_line]; exact solid_head _ _ ⟨'L', "INE".toList, by decide, by decide⟩
  | circle c => rw [writePath, text_circle]; exact solid_head _ _ ⟨'C', "IRCLE".toList, by decide, by decide⟩
  | composite gv => rw [writePath, text_composite]; exact solid_head _ _ ⟨'C', "OMPOSITE".toList, by decide, by decide⟩
  | cyclic g times => rw [writePath, text_cyclic]; exact solid_head _ _ ⟨'C', "YCLIC_CLOSED".toList, by decide, by decide⟩
  | rounded ps r => rw [writePath, text_composite]; exact solid_head _ _ ⟨'C', "OMPOSITE".toList, by decide, by decide⟩

theorem reads_pathPoint (hN : NumOk N rnd) (F : Frame) (d : ℕ) (b rest : List Char) (hb : Sp b) :
    Reads (readPath N (d + 1)) (b ++ (writePoint N F ++ rest)) (.point (rndFrame rnd F)) ('\n' :: rest) := by
  rw [text_point]
  refine reads_pathI (by decide) (by decide) (by decide) (by decide) hb (sp_of (by decide)) (solid_frame _ _) ?_
  rw [body_point]
  refine Reads.traced (Reads.bind ?_ (Reads.pure _ _))
  exact (reads_writeFrame hN (b := []) (sp_of (by decide)) F _).bind ((reads_close _).bind (Reads.pure _ _))

theorem reads_pathLine (hN : NumOk N rnd) (l : PathLine) (d : ℕ) (b rest : List Char) (hb : Sp b) :
    Reads (readPath N (d + 1)) (b ++ (writeLine N l ++ rest))
      (.line (PathLine.ofFrames (rndFrame rnd ⟨l.orient.pos 0, l.V_base_start⟩)
      (rndFrame rnd ⟨l.orient.pos (l.pathlength * l.scalerot), l.V_base_end⟩) (rnd l.eqradius))) ('\n' :: rest) := by
  rw [text_line]
  refine reads_pathI (by decide) (by decide) (by decide) (by decide) hb (sp_of (by decide)) (solid_frame _ _) ?_
  rw [body_line]
  exact Reads.traced ((reads_line hN _ _ _ (b := []) (sp_of (by decide)) _).bind (Reads.pure _ _))

theorem reads_pathCircle (hN : NumOk N rnd) (c : PathCircle) (d : ℕ) (b rest : List Char) (hb : Sp b) {q : PathCircle}
    (h : rereadCircle rnd c = .ok q) :
    Reads (readPath N (d + 1)) (b ++ (writeCircle N c ++ rest)) (.circle q) ('\n' :: rest) := by
  rw [text_circle, readPath_succ]
  refine Reads.bind (a := Sum.inr (rereadCircle rnd c)) (Reads.traced (reads_open "CIRCLE".toList (by decide) 64 hb.blank
    "CIRCLE".toList (by decide) (by decide) (by decide) (Sp.blank (b := "   ".toList) (sp_of (by decide))) _ (solid_frame _ _)
    (r := '\n' :: rest) ?_)) ?_
  · rw [body_circle]
    exact Reads.traced ((reads_circle hN _ _ _ _ _ _ (b := []) (sp_of (by decide)) _).bind (Reads.pure _ _))
  · dsimp only
    rw [h]
    exact Reads.pure _ _

theorem reads_pathComposite (hN : NumOk N rnd) (n : ℕ) (hi : inInt n = true) (parts : List Char) (qs : List PathObj) (d : ℕ)
    (b rest : List Char) (hb : Sp b) {b' : List Char} (hb' : Sp b')
    (h : Reads (readMany (readPath N d) n) ("\n".toList ++ (parts ++ (']' :: '\n' :: rest))) qs (b' ++ (']' :: '\n' :: rest))) :
    Reads (readPath N (d + 1)) (b ++ (writeComposite N n parts ++ rest)) (.composite qs) ('\n' :: rest) := by
  simp only [inInt, decide_eq_true_eq] at hi
  rw [text_composite]
  refine reads_pathI (by decide) (by decide) (by decide) (by decide) hb (sp_of (by decide)) (hN.solidInt _ _) ?_
  rw [body_composite]
  refine Reads.traced ((reads_integer hN [] _ _ hi.1 hi.2 (by simp) (stops_cons '\n' _ (by decide))).bind ?_)
  exact Reads.bind h ((reads_eatEnd hb'.blank ']' (solid_of (by simp)) _).bind (Reads.pure _ _))

theorem reads_pathCyclic (hN : NumOk N rnd) (geom : List Char) (times : ℤ) (hi : inInt times = true) (q : PathObj) (d : ℕ)
    (b rest : List Char) (hb : Sp b) (hs : ∀ l, SolidHead (geom ++ l))
    (h : ∀ rest, Reads (readPath N d) ([] ++ (geom ++ rest)) q ('\n' :: rest)) :
    Reads (readPath N (d + 1)) (b ++ (writeCyclic N geom times ++ rest)) (.cyclic q times) ('\n' :: rest) := by
  simp only [inInt, decide_eq_true_eq] at hi
  rw [text_cyclic]
  refine reads_pathI (by decide) (by decide) (by decide) (by decide) hb (sp_of (by decide)) (hs _) ?_
  rw [body_cyclic]
  refine Reads.traced ((h _).bind ?_)
  refine (reads_integer hN "\n\n  ".toList _ _ hi.1 hi.2 (Sp.isSpace (sp_of (by decide)))
    (stops_cons '\n' _ (by decide))).bind ?_
  exact (reads_eatEnd (Sp.blank (b := "\n".toList) (sp_of (by decide))) ']' (solid_of (by simp)) _).bind (Reads.pure _ _)

theorem reread_point (F : Frame) : reread rnd (.point F) = some (.point (rndFrame rnd F)) := by rw [reread]
theorem reread_line (l : PathLine) : reread rnd (.line l) =
    some (.line (PathLine.ofFrames (rndFrame rnd ⟨l.orient.pos 0, l.V_base_start⟩)
      (rndFrame rnd ⟨l.orient.pos (l.pathlength * l.scalerot), l.V_base_end⟩) (rnd l.eqradius))) := by rw [reread]

theorem reads_paths {d : ℕ} (ih : ∀ (p q : PathObj) (b rest : List Char), reread rnd p = some q → p.depth < d → Sp b →
    Reads (readPath N d) (b ++ (writePath N p ++ rest)) q ('\n' :: rest)) (ps : List PathObj) :
    ∀ (qs : List PathObj) (b rest : List Char), rereadAll rnd ps = some qs → depths ps < d → Sp b →
    ∃ b', Sp b' ∧ Reads (readMany (readPath N d) ps.length) (b ++ (writePaths N ps ++ rest)) qs (b' ++ rest) := by
  induction ps with
  | nil =>
    intro qs b rest h _ hb
    rw [rereadAll] at h
    rw [← Option.some.inj h, writePaths]
    exact ⟨b, hb, Reads.pure _ _⟩
  | cons p ps ihs =>
    intro qs b rest h hd hb
    rw [rereadAll] at h
    split at h
    · next q qs' h1 h2 =>
      rw [← Option.some.inj h]
      rw [depths] at hd
      obtain ⟨b', hb', h3⟩ := ihs qs' ['\n'] rest h2 (by omega) (sp_of (by decide))
      refine ⟨b', hb', ?_⟩
      have h4 := ih p q b (writePaths N ps ++ rest) h1 (by omega) hb
      rw [writePaths, List.append_assoc]
      exact h4.bind (h3.bind (Reads.pure _ _))
    · exact absurd h (by simp)

theorem reads_parts (hN : NumOk N rnd) (d : ℕ) : ∀ (ps : List (PathLine ⊕ PathCircle)) (qs : List PathObj) (b rest : List Char),
    rereadParts rnd ps = some qs → Sp b →
    ∃ b', Sp b' ∧ Reads (readMany (readPath N (d + 1)) ps.length) (b ++ (ps.flatMap (writePart N) ++ rest)) qs (b' ++ rest) := by
  intro ps
  induction ps with
  | nil =>
    intro qs b rest h hb
    rw [rereadParts] at h
    rw [← Option.some.inj h]
    exact ⟨b, hb, Reads.pure _ _⟩
  | cons p ps ih =>
    intro qs b rest h hb
    cases p with
    | inl l =>
      rw [rereadParts] at h
      obtain ⟨qs', h1, rfl⟩ := Option.map_eq_some_iff.1 h
      obtain ⟨b', hb', h3⟩ := ih qs' ['\n'] rest h1 (sp_of (by decide))
      refine ⟨b', hb', ?_⟩
      have h4 := reads_pathLine hN l d b (ps.flatMap (writePart N) ++ rest) hb
      rw [List.flatMap_cons, List.append_assoc]
      exact h4.bind (h3.bind (Reads.pure _ _))
    | inr c =>
      rw [rereadParts] at h
      split at h
      · next c' hc =>
        obtain ⟨qs', h1, rfl⟩ := Option.map_eq_some_iff.1 h
        obtain ⟨b', hb', h3⟩ := ih qs' ['\n'] rest h1 (sp_of (by decide))
        refine ⟨b', hb', ?_⟩
        have h4 := reads_pathCircle hN c d b (ps.flatMap (writePart N) ++ rest) hb hc
        rw [List.flatMap_cons, List.append_assoc]
        exact h4.bind (h3.bind (Reads.pure _ _))
      · exact absurd h (by simp)

theorem reads_path (hN : NumOk N rnd) (d : ℕ) : ∀ (p q : PathObj) (b rest : List Char), reread rnd p = some q →
    p.depth < d → Sp b → Reads (readPath N d) (b ++ (writePath N p ++ rest)) q ('\n' :: rest) := by
  induction d with
  | zero => intro p q b rest h hd; omega
  | succ d ih =>
    intro p q b rest h hd hb
    cases p with
    | point F =>
      rw [reread_point] at h
      rw [← Option.some.inj h, writePath]
      exact reads_pathPoint hN F d b rest hb
    | line l =>
      rw [reread_line] at h
      rw [← Option.some.inj h, writePath]
      exact reads_pathLine hN l d b rest hb
    | circle c =>
      rw [reread] at h
      split at h
      · next c' hc =>
        rw [← Option.some.inj h, writePath]
        exact reads_pathCircle hN c d b rest hb hc
      · exact absurd h (by simp)
    | composite gv =>
      rw [reread] at h
      split at h
      · next hi =>
        obtain ⟨qs, h1, rfl⟩ := Option.map_eq_some_iff.1 h
        rw [PathObj.depth] at hd
        obtain ⟨b', hb', h2⟩ := reads_paths ih gv qs ['\n'] (']' :: '\n' :: rest) h1 (by omega) (sp_of (by decide))
        rw [writePath]
        exact reads_pathComposite hN _ hi _ qs d b rest hb hb' h2
      · exact absurd h (by simp)
    | cyclic g times =>
      rw [reread] at h
      split at h
      · next hi =>
        obtain ⟨q', h1, rfl⟩ := Option.map_eq_some_iff.1 h
        rw [PathObj.depth] at hd
        have h2 := fun rest => ih g q' [] rest h1 (by omega) (sp_of (by decide))
        rw [writePath]
        exact reads_pathCyclic hN _ times hi q' d b rest hb (writePath_head g) h2
      · exact absurd h (by simp)
    | rounded ps r =>
      rw [reread] at h
      split at h
      · next hi =>
        obtain ⟨qs, h1, rfl⟩ := Option.map_eq_some_iff.1 h
        rw [PathObj.depth] at hd
        obtain ⟨d, rfl⟩ : ∃ m, d = m + 1 := ⟨d - 1, by omega⟩
        obtain ⟨b', hb', h2⟩ := reads_parts hN d ps qs ['\n'] (']' :: '\n' :: rest) h1 (sp_of (by decide))
        rw [writePath]
        exact reads_pathComposite hN _ hi _ qs (d + 1) b rest hb hb' h2
      · exact absurd h (by simp)

/-- **C73, paths.**  A path that has been written, with any spaces, tabs and newlines before, is read as the path
constructed from the rounded numbers, for every nesting of composite and cyclic paths; the reading stops behind the
closing bracket, in front of the newline that `Write` adds, and leaves the trace as it was.  Missing: the path read equals
the path written (see `C73_line` and `C73_circle_violated`), and rounded composites as such (their `Write` writes a composite, which is read back, see
`C73_rounded_violated`). -/
theorem C73_path_partial (hN : NumOk N rnd) (p q : PathObj) (h : reread rnd p = some q) (b rest : List Char) (hb : Sp b) :
    ∃ d0, ∀ d ≥ d0, Reads (readPath N d) (b ++ (writePath N p ++ rest)) q ('\n' :: rest) :=
  ⟨p.depth + 1, fun d hd => reads_path hN d p q b rest h (by omega) hb⟩

/-! ## When the path read is the path written -/

/-- Points and lines whose numbers survive the formatting, and composite and cyclic paths made of such. -/
inductive Faithful (rnd : ℝ → ℝ) : PathObj → Prop
  | point (F : Frame) : rndFrame rnd F = F → Faithful rnd (.point F)
  | line (A B : Frame) (r : ℝ) : LineOk A B → 0 < r ∨ A.p ≠ B.p → rndFrame rnd A = A → rndFrame rnd B = B → rnd r = r →
      Faithful rnd (.line (PathLine.ofFrames A B r))
  | circle (F : Frame) (p : Vec) (R : Rot) (alpha r : ℝ) (C : PathCircle) : PathCircle.new F 0 p R alpha r = .ok C →
      F.IsProper → R.IsProper → (F.M.inv * R).Resolved → rndFrame rnd F = F → rnd 0 = 0 →
      rndVec rnd C.F_base_center.M.unitY = C.F_base_center.M.unitY → rndRot rnd R = R →
      rnd (alpha * (180 / Real.pi)) = alpha * (180 / Real.pi) → rnd r = r → Faithful rnd (.circle C)
  | composite (gv : List PathObj) : (∀ p ∈ gv, Faithful rnd p) → gv.length < 2 ^ 31 → Faithful rnd (.composite gv)
  | cyclic (g : PathObj) (times : ℤ) : Faithful rnd g → -2 ^ 31 ≤ times → times < 2 ^ 31 → Faithful rnd (.cyclic g times)

theorem circle_new_z (F : Frame) (ctr p p' : Vec) (R : Rot) (alpha eq : ℝ)
    (h : ((F.p - ctr).normalize.1 * (p - ctr).normalize.1).normalize.1 =
      ((F.p - ctr).normalize.1 * (p' - ctr).normalize.1).normalize.1)
    (h1 : epsilon ≤ ((F.p - ctr).normalize.1 * (p - ctr).normalize.1).norm)
    (h2 : epsilon ≤ ((F.p - ctr).normalize.1 * (p' - ctr).normalize.1).norm) :
    PathCircle.new F ctr p R alpha eq = PathCircle.new F ctr p' R alpha eq := by
  have k : ∀ v : Vec, epsilon ≤ v.norm → ¬ v.normalize.2 < epsilon := by
    intro v hv
    have := Vec.normalize_of_le v hv
    rw [this.1, not_lt]
    exact this.2 ▸ hv
  unfold PathCircle.new
  dsimp only
  rw [h, if_neg (k _ h1), if_neg (k _ h2)]

/-- A circle around the origin is constructed again from its axis `UnitY`. -/
theorem circle_again (F : Frame) (p : Vec) (R : Rot) (alpha eq : ℝ) (C : PathCircle)
    (h : PathCircle.new F 0 p R alpha eq = .ok C) : PathCircle.new F 0 C.F_base_center.M.unitY R alpha eq = .ok C := by
  obtain ⟨sp, hM, he⟩ := circle_spec F 0 p R alpha eq C h
  rw [← h]
  have hx := Vec.normalize_unit (F.p - 0)
  have hz := Vec.normalize_unit ((F.p - 0).normalize.1 * (p - 0).normalize.1)
  have hxz : (F.p - 0).normalize.1.dot ((F.p - 0).normalize.1 * (p - 0).normalize.1).normalize.1 = 0 := by
    rw [(Vec.normalize_of_le _ he).1]
    simp only [Vec.dot, Vec.div_x, Vec.div_y, Vec.div_z, Vec.mul_x, Vec.mul_y, Vec.mul_z]
    ring
  have hY : C.F_base_center.M.unitY =
      ((F.p - 0).normalize.1 * (p - 0).normalize.1).normalize.1 * (F.p - 0).normalize.1 := by
    rw [hM]; ext <;> simp [Rot.unitY, Rot.ofCols]
  generalize hxx : (F.p - 0).normalize.1 = x at *
  generalize hzz : (x * (p - 0).normalize.1).normalize.1 = z at *
  simp only [Vec.dot] at hx hz hxz
  have hl : (z * x).len = 1 := by
    rw [Vec.len_eq_sqrt_dot]
    have : (z * x).dot (z * x) = 1 := by
      simp only [Vec.dot, Vec.mul_x, Vec.mul_y, Vec.mul_z]
      linear_combination (z.x * z.x + z.y * z.y + z.z * z.z) * hx + hz -
        (x.x * z.x + x.y * z.y + x.z * z.z) * hxz
    rw [this, Real.sqrt_one]
  have hlz : z.len = 1 := by
    rw [Vec.len_eq_sqrt_dot]
    simp only [Vec.dot]
    rw [hz, Real.sqrt_one]
  have he1 : 2 * epsilon ≤ (1 : ℝ) := by norm_num [epsilon]
  have n1 : (z * x - 0).normalize.1 = z * x := by
    rw [sub_zero, (Vec.normalize_of_le _ (norm_of_len _ (by rw [hl]; exact he1))).1, hl]
    ext <;> simp
  have n2 : x * (z * x) = z := by
    ext <;> simp
    · linear_combination z.x * hx - x.x * hxz
    · linear_combination z.y * hx - x.y * hxz
    · linear_combination z.z * hx - x.z * hxz
  have n3 := Vec.normalize_of_le _ (norm_of_len z (by rw [hlz]; exact he1))
  have n4 : z.normalize.1 = z := by rw [n3.1, hlz]; ext <;> simp
  refine circle_new_z F 0 _ p R alpha eq ?_ ?_ ?_
  · rw [hxx, hY, n1, n2, n4, hzz]
  · rw [hxx, hY, n1, n2]; exact norm_of_len z (by rw [hlz]; exact he1)
  · rw [hxx]; exact he

theorem reread_faithful {p : PathObj} (h : Faithful rnd p) : reread rnd p = some p := by
  induction h with
  | point F h => rw [reread_point, h]
  | line A B r hl hr hA hB hr' =>
    have h0 : (PathLine.ofFrames A B r).orient.pos 0 = A.M := C66_start _ _
    have h1 := congrArg Frame.M (C60_stop_partial A B r hl hr)
    have h1' : (PathLine.ofFrames A B r).orient.pos
      ((PathLine.ofFrames A B r).pathlength * (PathLine.ofFrames A B r).scalerot) = B.M := h1
    rw [reread_line, h0, h1']
    show some (PathObj.line (PathLine.ofFrames (rndFrame rnd A) (rndFrame rnd B) (rnd r))) = _
    rw [hA, hB, hr']
  | circle F p R alpha r C h hF hR hres hF' h0 hY hR' ha hr =>
    obtain ⟨sp, -⟩ := circle_spec F 0 p R alpha r C h
    have e : rereadCircle rnd C = .ok C := by
      have e1 : C.orient.pos (C.pathlength * C.scalerot) = R := (C61_stop_partial F 0 p R alpha r C h hF hR hres).2
      have e2 : C.pathlength * C.scalelin / C.radius / deg2rad = alpha * (180 / Real.pi) := by
        have := sp.radius_pos.ne'
        have := Real.pi_ne_zero
        rw [sp.lin, deg2rad]
        field_simp
      have e3 : rndVec rnd 0 = 0 := by ext <;> simp [rndVec, h0]
      have e4 : alpha * (180 / Real.pi) * deg2rad = alpha := by
        have := Real.pi_ne_zero
        rw [deg2rad]
        field_simp
      have e5 : C.eqradius = r := by
        have := h
        unfold PathCircle.new at this
        dsimp only at this
        split_ifs at this <;> cases this <;> rfl
      rw [rereadCircle, C61_start F 0 p R alpha r C h, sp.center, e1, e2, e3, e5, hF', hY, hR', ha, hr, e4]
      exact circle_again F p R alpha r C h
    rw [reread, e]
  | composite gv _ hl ih =>
    have : ∀ l : List PathObj, (∀ p ∈ l, reread rnd p = some p) → rereadAll rnd l = some l := by
      intro l
      induction l with
      | nil => intro _; rw [rereadAll]
      | cons p ps ihl =>
        intro h
        rw [rereadAll, h p (by simp), ihl fun q hq => h q (by simp [hq])]
    rw [reread, if_pos (by simp only [inInt, decide_eq_true_eq]; constructor <;> [omega; exact_mod_cast hl]), this gv ih]
    rfl
  | cyclic g times _ h1 h2 ih =>
    rw [reread, if_pos (by simp only [inInt, decide_eq_true_eq]; exact ⟨h1, h2⟩), ih]
    rfl

/-- **C73, identity.**  Points, lines, circles around the origin, composite and cyclic paths whose numbers survive the
formatting are read back as they were, members included.  Missing: circles around another point
(`C73_circle_violated`). -/
theorem C73_identity_partial (hN : NumOk N rnd) (p : PathObj) (h : Faithful rnd p) (b rest : List Char) (hb : Sp b) :
    ∃ d0, ∀ d ≥ d0, Reads (readPath N d) (b ++ (writePath N p ++ rest)) p ('\n' :: rest) :=
  C73_path_partial hN p p (reread_faithful h) b rest hb

/-- **C73 fails for circles.**  `Path_Circle::Write` writes the direction `UnitY` where `Path::Read` expects a point of the
plane: a half circle around `(0,1,0)` with normal `-x`, all numbers of which are written exactly, is read as one with
normal `y`. -/
theorem C73_circle_violated (hN : NumOk N rnd) (h0 : rnd 0 = 0) (h1 : rnd 1 = 1) (h2 : rnd 180 = 180) (b rest : List Char)
    (hb : Sp b) : ∃ C D, PathCircle.new ⟨1, ⟨0, 1, 1⟩⟩ ⟨0, 1, 0⟩ ⟨0, 2, 0⟩ 1 Real.pi 1 = .ok C ∧
      (∃ d0, ∀ d ≥ d0, Reads (readPath N d) (b ++ (writePath N (.circle C) ++ rest)) (.circle D) ('\n' :: rest)) ∧
      C.F_base_center.M.unitZ = ⟨-1, 0, 0⟩ ∧ D.F_base_center.M.unitZ = ⟨0, 1, 0⟩ := by
  have hC := circle_new_one ⟨0, 1, 1⟩ ⟨0, 1, 0⟩ ⟨0, 2, 0⟩ ⟨0, 0, 1⟩ ⟨0, 1, 0⟩ ⟨-1, 0, 0⟩ Real.pi 1 Real.pi_pos
    (by rw [show (⟨0, 1, 1⟩ : Vec) - ⟨0, 1, 0⟩ = ⟨0, 0, 1⟩ by ext <;> simp, circle_nZ])
    (by rw [show (⟨0, 2, 0⟩ : Vec) - ⟨0, 1, 0⟩ = ⟨0, 1, 0⟩ by ext <;> simp; norm_num, circle_nY])
    (by rw [show ((⟨0, 0, 1⟩ : Vec) * (⟨0, 1, 0⟩ : Vec)) = ⟨-1, 0, 0⟩ by ext <;> simp, circle_nXm])
  have hs := C61_start _ _ _ _ _ _ _ hC
  have hD := circle_new_one ⟨0, 1, 1⟩ ⟨0, 1, 0⟩ ⟨0, 1, 0⟩ ⟨0, 0, 1⟩ ⟨1, 0, 0⟩ ⟨0, 1, 0⟩ Real.pi 1 Real.pi_pos
    (by rw [show (⟨0, 1, 1⟩ : Vec) - ⟨0, 1, 0⟩ = ⟨0, 0, 1⟩ by ext <;> simp, circle_nZ])
    (by rw [sub_self, Vec.normalize_zero])
    (by rw [show ((⟨0, 0, 1⟩ : Vec) * (⟨1, 0, 0⟩ : Vec)) = ⟨0, 1, 0⟩ by ext <;> simp, circle_nY])
  refine ⟨_, ⟨RotInterp.setStartEnd 1 1, 1, ⟨Rot.ofCols ⟨0, 0, 1⟩ ((⟨0, 1, 0⟩ : Vec) * (⟨0, 0, 1⟩ : Vec)) ⟨0, 1, 0⟩,
    ⟨0, 1, 0⟩⟩, 1, Real.pi, 1, 0⟩, hC, ?_, rfl, rfl⟩
  refine C73_path_partial hN _ _ ?_ b rest hb
  have key : ∀ C D, rereadCircle rnd C = .ok D → reread rnd (.circle C) = some (.circle D) := fun C D h => by
    rw [reread, h]
  refine key _ _ ?_
  · rw [rereadCircle, hs]
    dsimp only
    have hu : (Rot.ofCols ⟨0, 0, 1⟩ ((⟨-1, 0, 0⟩ : Vec) * (⟨0, 0, 1⟩ : Vec)) ⟨-1, 0, 0⟩).unitY = ⟨0, 1, 0⟩ := by
      ext <;> simp [Rot.unitY, Rot.ofCols]
    have ha : Real.pi * 1 / 1 / deg2rad = 180 := by
      have := Real.pi_ne_zero
      unfold deg2rad; field_simp
    have hb : (180 : ℝ) * deg2rad = Real.pi := by unfold deg2rad; ring
    have hR : rndRot rnd 1 = 1 := by ext <;> simp [rndRot, h0, h1]
    have hF : rndFrame rnd ⟨1, ⟨0, 1, 1⟩⟩ = ⟨1, ⟨0, 1, 1⟩⟩ := by rw [rndFrame, hR]; simp [rndVec, h0, h1]
    have hv : rndVec rnd ⟨0, 1, 0⟩ = ⟨0, 1, 0⟩ := by simp [rndVec, h0, h1]
    rw [mul_zero, C66_start, hu, ha, h2, hb, hF, hv, hR, h1]
    exact hD

/-! ## Velocity profiles -/

/-- On a good stream with the characters `l` the function returns `a` and leaves the stream `S`. -/
def Ends {α : Type} (m : Rd α) (l : List Char) (a : α) (S : IStream) : Prop := ∀ tr, m (good l tr) = .ok a ⟨S, tr⟩

theorem Reads.ends {α : Type} {m : Rd α} {l r : List Char} {a : α} (h : Reads m l a r) : Ends m l a ⟨r, false, false⟩ := h

theorem Reads.bindEnds {α β : Type} {m : Rd α} {f : α → Rd β} {l l' : List Char} {a : α} {b : β} {S : IStream}
    (h : Reads m l a l') (h' : Ends (f a) l' b S) : Ends (m >>= f) l b S := fun tr => by
  rw [bind_ok (h tr), h' tr]

theorem Ends.post {α β : Type} {m : Rd α} {l : List Char} {a : α} {S : IStream} (h : Ends m l a S) (g : α → β) :
    Ends (m >>= fun x => (pure (g x) : Rd β)) l (g a) S := fun tr => by
  rw [bind_ok (h tr)]; rfl

theorem Ends.traced {α : Type} {d : String} {m : Rd α} {l : List Char} {a : α} {S : IStream} (h : Ends m l a S) :
    Ends (traced d m) l a S := fun tr => by
  unfold TextIo.traced
  rw [bind_ok (m := ioTrace d) (s := good l tr) (s' := good l (d :: tr)) rfl, bind_ok (h (d :: tr)),
    bind_ok (m := ioTracePop) (s := ⟨S, d :: tr⟩) (s' := ⟨S, tr⟩) rfl]
  rfl

theorem open_ends (W : List Char) (hW : ∀ c ∈ W, c ∉ ['[', ']', '#', '/', ' ', '\n', '\t', '\x00']) (n : ℕ)
    {b : List Char} (hb : Blank b) (hw : W.map Char.toUpper = W) (hne : W ≠ []) (hlen : W.length < n)
    {b' : List Char} (hb' : Blank b') (l : List Char) (hl : SolidHead l) {β : Type} {f : List Char → Rd β} {y : β}
    {S : IStream} (h : Ends (f W) l y S) :
    Ends (eatWord ['['] n >>= fun w => eat '[' >>= fun _ => f w) (b ++ (W ++ ('[' :: (b' ++ l)))) y S := by
  have h1 := C67_word_partial ['['] n b W [] hb .nil '[' (b' ++ l) (solid_of (by simp))
    (wordChar_of_upper hw hW _ (by simp)) hne hlen (Or.inr rfl)
  rw [hw] at h1
  exact h1.bindEnds ((reads_eat (b := []) .nil hb' '[' (solid_of (by simp)) l hl).bindEnds h)

/-- The profile constructed from the rounded parameters; none for splines. -/
noncomputable def newOf (rnd : ℝ → ℝ) : ProfObj → Option NewProf
  | .dirac _ => some .dirac
  | .rect r => some (.rect (rnd r.maxvel))
  | .trap t => some (.trap (rnd t.maxvel) (rnd t.maxacc))
  | .half h _ => some (.half (rnd h.maxvel) (rnd h.maxacc) h.starting)
  | .spline _ => none

theorem lit_dirac : "DIRACVEL[ ]".toList = "DIRACVEL".toList ++ '[' :: (" ".toList ++ [']']) := by decide
theorem lit_rect : "CONSTVEL[".toList = "CONSTVEL".toList ++ ['['] := by decide
theorem lit_trap : "TRAPEZOIDAL[".toList = "TRAPEZOIDAL".toList ++ ['['] := by decide
theorem lit_half : "TRAPEZOIDALHALF[".toList = "TRAPEZOIDALHALF".toList ++ ['['] := by decide
theorem lit_cl : "]".toList = [']'] := by decide
theorem lit_co : ",".toList = [','] := by decide

/-- What the reading of a profile does depends on the characters behind it only through the last `Eat`. -/
theorem ends_prof (hN : NumOk N rnd) (m : ProfObj) (n : NewProf) (h : newOf rnd m = some n) (b t : List Char) (hb : Blank b)
    (S : IStream) (ht : Ends (eat ']') (']' :: t) () S) : Ends (readProf N) (b ++ (writeProf N m ++ t)) n S := by
  have comma : ∀ l, SolidHead l → Reads (eat ',') (',' :: l) () l := fun l hl =>
    reads_eat (b := []) (b' := []) .nil .nil ',' (solid_of (by simp)) l hl
  cases m with
  | dirac d =>
    cases h
    have e : writeProf N (.dirac d) ++ t = "DIRACVEL".toList ++ ('[' :: (" ".toList ++ (']' :: t))) := by
      unfold writeProf
      simp only [lit_dirac, List.append_assoc, List.cons_append, List.nil_append]
    rw [e]
    refine Ends.traced (open_ends _ (by decide) 25 hb (by decide) (by decide) (by decide)
      (Sp.blank (b := " ".toList) (sp_of (by decide))) _ (solid_cons _ _ (solid_of (by simp))) ?_)
    rw [if_pos rfl]
    exact ht.post fun _ => _
  | rect r =>
    cases h
    have e : writeProf N (.rect r) ++ t = "CONSTVEL".toList ++ ('[' :: ([] ++ (N.fmt r.maxvel ++ (']' :: t)))) := by
      unfold writeProf
      simp only [lit_rect, lit_cl, List.append_assoc, List.cons_append, List.nil_append]
    rw [e]
    refine Ends.traced (open_ends _ (by decide) 25 hb (by decide) (by decide) (by decide) .nil _ (hN.solid _ _) ?_)
    rw [if_neg (by decide), if_pos rfl]
    exact (reads_number' hN _ _ (stops_cons ']' _ (by decide))).bindEnds (ht.post fun _ => _)
  | trap p =>
    cases h
    have e : writeProf N (.trap p) ++ t = "TRAPEZOIDAL".toList ++ ('[' :: ([] ++ (N.fmt p.maxvel ++ (',' ::
        (N.fmt p.maxacc ++ (']' :: t)))))) := by
      unfold writeProf
      simp only [lit_trap, lit_cl, lit_co, List.append_assoc, List.cons_append, List.nil_append]
    rw [e]
    refine Ends.traced (open_ends _ (by decide) 25 hb (by decide) (by decide) (by decide) .nil _ (hN.solid _ _) ?_)
    rw [if_neg (by decide), if_neg (by decide), if_pos rfl]
    exact (reads_number' hN _ _ (stops_cons ',' _ (by decide))).bindEnds ((comma _ (hN.solid _ _)).bindEnds
      ((reads_number' hN _ _ (stops_cons ']' _ (by decide))).bindEnds (ht.post fun _ => _)))
  | half p q =>
    cases h
    have e : writeProf N (.half p q) ++ t = "TRAPEZOIDALHALF".toList ++ ('[' :: ([] ++ (N.fmt p.maxvel ++ (',' ::
        (N.fmt p.maxacc ++ (',' :: (N.fmtInt (if p.starting then 1 else 0) ++ (']' :: t)))))))) := by
      unfold writeProf
      simp only [lit_half, lit_cl, lit_co, List.append_assoc, List.cons_append, List.nil_append]
    rw [e]
    refine Ends.traced (open_ends _ (by decide) 25 hb (by decide) (by decide) (by decide) .nil _ (hN.solid _ _) ?_)
    rw [if_neg (by decide), if_neg (by decide), if_neg (by decide), if_pos rfl]
    exact (reads_number' hN _ _ (stops_cons ',' _ (by decide))).bindEnds ((comma _ (hN.solid _ _)).bindEnds
      ((reads_number' hN _ _ (stops_cons ',' _ (by decide))).bindEnds ((comma _ (hN.solidInt _ _)).bindEnds
      ((reads_boolean hN _ _ (stops_cons ']' _ (by decide))).bindEnds (ht.post fun _ => _)))))
  | spline p => cases h

/-- **C73, profiles.**  A profile other than a spline that has been written is read with the parameters it was constructed
with, if something follows it in the stream.  Missing: the motion planned with `SetProfile`
(`C73_duration_violated`), splines (`C73_spline_violated`), a profile at the end of the stream
(`C73_profile_end_violated`). -/
theorem C73_profile_partial (hN : NumOk N rnd) (m : ProfObj) (n : NewProf) (h : newOf rnd m = some n) (b b' rest : List Char)
    (hb : Blank b) (hb' : Blank b') (c : Char) (hc : Solid c) :
    Reads (readProf N) (b ++ (writeProf N m ++ (b' ++ c :: rest))) n (c :: rest) :=
  ends_prof hN m n h b _ hb _ (reads_eat (b := []) .nil hb' ']' (solid_of (by simp)) _ (solid_cons _ _ hc))

/-- **C73 fails for a profile at the end of the stream.**  `VelocityProfile::Read` ends with `Eat` instead of `EatEnd`: it
looks for the next character behind the bracket, does not find one, and leaves the stream failed although the profile was
read. -/
theorem C73_profile_end_violated (hN : NumOk N rnd) (m : ProfObj) (n : NewProf) (h : newOf rnd m = some n) (b : List Char)
    (hb : Blank b) (tr : List String) : readProf N (good (b ++ writeProf N m) tr) = .ok n ⟨⟨[], false, true⟩, tr⟩ := by
  have := ends_prof hN m n h b [] hb ⟨[], false, true⟩ (fun tr => by
    have h1 := skipSpace_solid ']' [] (solid_of (by simp)) (-1)
    unfold eat
    rw [bind_ok (eatSpace_ok h1 tr), if_pos rfl]
    have h2 : skipSpace [] (-1) = .eof 0 := by rw [skipSpace.eq_def]; rfl
    rw [bind_ok (m := eatSpace) (a := (none, 0)) (s' := ⟨⟨[], true, true⟩, tr⟩) (by simp [eatSpace, good, h2])]
    rfl) tr
  simpa using this

theorem Reads.bindExc {α β : Type} {m : Rd α} {f : α → Rd β} {l l' : List Char} {a : α} {e : IoErr} (h : Reads m l a l')
    (h' : ∀ tr, ∃ s, f a (good l' tr) = .exc e s) : ∀ tr, ∃ s, (m >>= f) (good l tr) = .exc e s := fun tr => by
  rw [bind_ok (h tr)]; exact h' tr

theorem traced_throws {α : Type} {d : String} {m : Rd α} {l : List Char} {e : IoErr}
    (h : ∀ tr, ∃ s, m (good l tr) = .exc e s) : ∀ tr, ∃ s, traced d m (good l tr) = .exc e s := fun tr => by
  obtain ⟨s, hs⟩ := h (d :: tr)
  unfold TextIo.traced
  rw [bind_ok (m := ioTrace d) (s := good l tr) (s' := good l (d :: tr)) rfl]
  exact ⟨s, bind_exc hs⟩

/-- **C73, the flag of a half trapezoid** has to be 0 or 1: text with any other number is rejected. -/
theorem C73_flag (hN : NumOk N rnd) (x y : ℝ) (n : ℤ) (h1 : -2 ^ 31 ≤ n) (h2 : n < 2 ^ 31) (hn0 : n ≠ 0) (hn1 : n ≠ 1)
    (b t : List Char) (hb : Blank b) (tr : List String) :
    ∃ s, readProf N (good (b ++ ("TRAPEZOIDALHALF[".toList ++ (N.fmt x ++ (',' :: (N.fmt y ++ (',' ::
      (N.fmtInt n ++ (']' :: t)))))))) tr) = .exc .expDelim s := by
  have comma : ∀ l, SolidHead l → Reads (eat ',') (',' :: l) () l := fun l hl =>
    reads_eat (b := []) (b' := []) .nil .nil ',' (solid_of (by simp)) l hl
  simp only [lit_half, List.append_assoc, List.cons_append, List.nil_append]
  have hw := C67_word_partial ['['] 25 b "TRAPEZOIDALHALF".toList [] hb .nil '[' (N.fmt x ++ (',' :: (N.fmt y ++ (',' ::
      (N.fmtInt n ++ (']' :: t)))))) (solid_of (by simp))
    (wordChar_of_upper (W := "TRAPEZOIDALHALF".toList) (by decide) (by decide) _ (by simp)) (by decide) (by decide) (Or.inr rfl)
  rw [show "TRAPEZOIDALHALF".toList.map Char.toUpper = "TRAPEZOIDALHALF".toList by decide] at hw
  refine traced_throws (hw.bindExc ((reads_eat (b := []) (b' := []) .nil .nil '[' (solid_of (by simp)) _
    (hN.solid _ _)).bindExc (by
      rw [if_neg (by decide), if_neg (by decide), if_neg (by decide), if_pos rfl]
      refine (reads_number' hN _ _ (stops_cons ',' _ (by decide))).bindExc ((comma _ (hN.solid _ _)).bindExc
        ((reads_number' hN _ _ (stops_cons ',' _ (by decide))).bindExc ((comma _ (hN.solidInt _ _)).bindExc fun tr => ?_)))
      obtain ⟨c, r, h3, h4, -⟩ := hN.headInt n
      have hr := hN.readInt n (']' :: t) h1 h2 (stops_cons ']' _ (by decide))
      rw [h3, List.cons_append] at hr
      rw [bind_ok (m := boolean N) (a := true) (s' := ⟨⟨']' :: t, false, true⟩, tr⟩) (by
        rw [h3, boolean, extract]
        simp only [good, Bool.or_false, Bool.false_eq_true, if_false, List.cons_append,
          List.dropWhile_cons_of_neg (show ¬ isSpace c = true by simp [h4]), hr]
        split
        · rename_i h; split at h
          · rename_i h'; cases h'; exact absurd rfl hn0
          · rename_i h'; cases h'; exact absurd rfl hn1
          · cases h
        · rename_i h; split at h
          · cases h
          · cases h
          · rename_i h'; cases h'; cases h; rfl)]
      exact ⟨_, rfl⟩))) tr

/-- **C73 fails for splines**: their text, which is meant for people, is rejected. -/
theorem C73_spline_violated (p : SplineProfile) (rest : List Char) (tr : List String) :
    ∃ s, readProf N (good (writeProf N (.spline p) ++ rest) tr) = .exc .expDelim s := by
  have e : ∃ l, writeProf N (.spline p) ++ rest = [] ++ ("coefficients".toList ++ (" ".toList ++ ':' :: l)) := by
    have g : ∀ X : List Char, ∃ l, "coefficients : [ ".toList ++ X = [] ++ ("coefficients".toList ++ (" ".toList ++ ':' :: l)) :=
      fun X => ⟨" [ ".toList ++ X, by
        rw [show "coefficients : [ ".toList = "coefficients".toList ++ (" ".toList ++ (':' :: " [ ".toList)) by decide]
        simp only [List.append_assoc, List.cons_append, List.nil_append]⟩
    unfold writeProf
    simp only [List.append_assoc]
    exact g _
  obtain ⟨l, e⟩ := e
  rw [e]
  have hc : Solid ':' := ⟨by decide, by decide, by decide⟩
  have h1 := C67_word_partial ['['] 25 [] "coefficients".toList " ".toList .nil (Sp.blank (sp_of (by decide))) ':' l hc
    (wordChar_of_upper (W := "COEFFICIENTS".toList) (by decide) (by decide) _ (by simp)) (by decide) (by decide)
    (Or.inl (by decide))
  have h2 : eat '[' (good (':' :: l) ("VelocityProfile::Read" :: tr)) = .exc .expDelim (good l ("VelocityProfile::Read" :: tr)) := by
    unfold eat
    rw [bind_ok (eatSpace_ok (skipSpace_solid ':' l hc (-1)) _), if_neg (by decide)]
    rfl
  refine ⟨good l ("VelocityProfile::Read" :: tr), traced_exc ?_⟩
  exact (bind_ok (h1 _)).trans (bind_exc h2)

/-! ## Trajectories -/

theorem lit_segment : "SEGMENT[ \n".toList = "SEGMENT".toList ++ '[' :: " \n".toList := by decide

/-- **C73, trajectories.**  A trajectory segment that has been written is read with the path and the parameters of the
profile.  Missing: the motion along the path, composite and stationary trajectories. -/
theorem C73_trajectory_partial (hN : NumOk N rnd) (g q : PathObj) (hg : reread rnd g = some q) (m : ProfObj) (n : NewProf)
    (hm : newOf rnd m = some n) (b rest : List Char) (hb : Sp b) :
    ∃ d0, ∀ d ≥ d0, Reads (readTraj N d) (b ++ (writeTraj N (.segment g m) ++ rest)) (q, n) rest := by
  refine ⟨g.depth + 1, fun d hd => ?_⟩
  have e : writeTraj N (.segment g m) ++ rest = "SEGMENT".toList ++ ('[' :: (" \n  ".toList ++ (writePath N g ++
      ("\n  ".toList ++ (writeProf N m ++ ("\n".toList ++ (']' :: rest))))))) := by
    rw [writeTraj]
    unfold writeSegment
    simp only [lit_segment, show " \n  ".toList = " \n".toList ++ "  ".toList by decide, lit_n2, lit_cl, List.append_assoc,
      List.cons_append, List.nil_append]
  rw [e]
  refine Reads.traced (reads_open "SEGMENT".toList (by decide) 64 hb.blank _ (by decide) (by decide) (by decide)
    (Sp.blank (b := " \n  ".toList) (sp_of (by decide))) _ (writePath_head g _) ?_)
  rw [if_pos rfl]
  refine Reads.traced ((reads_path hN d g q [] _ hg (by omega) (sp_of (by decide))).bind ?_)
  exact (C73_profile_partial hN m n hm "\n\n  ".toList "\n".toList rest (Sp.blank (sp_of (by decide)))
    (Sp.blank (sp_of (by decide))) ']' (solid_of (by simp))).bind ((reads_close rest).bind (Reads.pure _ _))

/-- **C73 fails for the motion.**  `Write` omits the profile set with `SetProfile`: a trajectory of 3 s and one of 4 s have
the same text, and what is read from it has the duration 0. -/
theorem C73_duration_violated (hN : NumOk N rnd) (h1 : rnd 1 = 1) (F : Frame) (rest : List Char) :
    ∃ p p' : TrapProfile, (TrapProfile.new 1 1).setProfile 0 2 = .ok p ∧ (TrapProfile.new 1 1).setProfile 0 3 = .ok p' ∧
      p.q.duration = 3 ∧ p'.q.duration = 4 ∧
      writeTraj N (.segment (.point F) (.trap p)) = writeTraj N (.segment (.point F) (.trap p')) ∧
      ∃ d0, ∀ d ≥ d0, ∃ n, Reads (readTraj N d) (writeTraj N (.segment (.point F) (.trap p)) ++ rest)
        (.point (rndFrame rnd F), n) rest ∧ n.duration = some 0 := by
  have k : ∀ x : ℝ, 1 < x → ∃ p : TrapProfile, (TrapProfile.new 1 1).setProfile 0 x = .ok p ∧ p.q.duration = x + 1 ∧
      p.maxvel = 1 ∧ p.maxacc = 1 := by
    intro x hx
    have e : (TrapProfile.new 1 1).setProfile 0 x = .ok { TrapProfile.new 1 1 with
        q := TrapProfile.coefs 1 1 0 x 1 (2 * 1 + (x - 1) - 1) (2 * 1 + (x - 1)) } := by
      unfold TrapProfile.setProfile
      have hs : sgn x = 1 := if_neg (by linarith)
      rw [if_neg (by norm_num [TrapProfile.new]), if_neg (by norm_num [TrapProfile.new])]
      have : (x - 0 - 2 * ((1 : ℝ) * 1 * (1 / 1) ^ 2 / 2)) / (1 * 1) = x - 1 := by ring
      dsimp only [TrapProfile.new]
      rw [show sgn (x - 0) = 1 by rw [sub_zero, hs], this, if_pos (by linarith), div_one]
    exact ⟨_, e, by show 2 * 1 + (x - 1) = x + 1; ring, rfl, rfl⟩
  obtain ⟨p, a1, a2, a3, a4⟩ := k 2 (by norm_num)
  obtain ⟨p', b1, b2, b3, b4⟩ := k 3 (by norm_num)
  refine ⟨p, p', a1, b1, by rw [a2]; norm_num, by rw [b2]; norm_num, ?_, ?_⟩
  · have w : writeProf N (.trap p) = writeProf N (.trap p') := by
      unfold writeProf
      simp only [a3, a4, b3, b4]
    have v : ∀ g m, writeTraj N (.segment g m) = writeSegment N g m := fun g m => by rw [writeTraj]
    rw [v, v]
    unfold writeSegment
    rw [w]
  · obtain ⟨d0, h⟩ := C73_trajectory_partial hN (.point F) _ (reread_point F) (.trap p) (.trap 1 1)
      (by rw [newOf, a3, a4, h1]) [] rest (sp_of (by decide))
    exact ⟨d0, fun d hd => ⟨_, h d hd, rfl⟩⟩

/-- What is written of a profile is a function of the parameters of its constructor: planning another motion does not change
the text. -/
theorem C73_text_violated (m m' : ProfObj) (n : NewProf) (h : newOf id m = some n) (h' : newOf id m' = some n) :
    writeProf N m = writeProf N m' := by
  cases m <;> cases m' <;> simp only [newOf, id, Option.some.injEq, reduceCtorEq] at h h' <;> subst h <;>
    simp only [NewProf.rect.injEq, NewProf.trap.injEq, NewProf.half.injEq, reduceCtorEq] at h' <;> unfold writeProf
  · rfl
  · dsimp only; rw [h']
  · dsimp only; rw [h'.1, h'.2]
  · dsimp only; rw [h'.1, h'.2.1, h'.2.2]

/-- The other profiles that are read have no duration at all: the member is not initialised. -/
theorem C73_uninitialised_violated (hN : NumOk N rnd) (F : Frame) (m : ProfObj) (n : NewProf) (hm : newOf rnd m = some n)
    (ht : ∀ t, m ≠ .trap t) (rest : List Char) :
    ∃ d0, ∀ d ≥ d0, Reads (readTraj N d) (writeTraj N (.segment (.point F) m) ++ rest) (.point (rndFrame rnd F), n) rest ∧
      n.duration = none := by
  obtain ⟨d0, h⟩ := C73_trajectory_partial hN (.point F) _ (reread_point F) m n hm [] rest (sp_of (by decide))
  refine ⟨d0, fun d hd => ⟨h d hd, ?_⟩⟩
  cases m with
  | trap t => exact absurd rfl (ht t)
  | dirac d => cases hm; rfl
  | rect d => cases hm; rfl
  | half d q => cases hm; rfl
  | spline d => cases hm

/-- **C73 fails for composite and stationary trajectories**: what they write is rejected. -/
theorem C73_rejected_violated (hN : NumOk N rnd) (d : ℕ) (rest : List Char) (tr : List String) :
    (∀ vt : List TrajObj, ∃ s, readTraj N d (good (writeTraj N (.composite vt) ++ rest) tr) = .exc .unexpectedTraj s) ∧
      ∀ (T : ℝ) (F : Frame), ∃ s, readTraj N d (good (writeTraj N (.stationary T F) ++ rest) tr) = .exc .unexpectedTraj s := by
  have key : ∀ (W l : List Char), (∀ c ∈ W, c ∉ ['[', ']', '#', '/', ' ', '\n', '\t', '\x00']) → W.map Char.toUpper = W →
      W ≠ [] → W.length < 64 → W ≠ "SEGMENT".toList → SolidHead l →
      ∃ s, readTraj N d (good ([] ++ (W ++ ('[' :: (" ".toList ++ l)))) tr) = .exc .unexpectedTraj s := by
    intro W l hW hw hne hlen hs hl
    refine ⟨good l ("Trajectory::Read" :: tr), traced_exc ?_⟩
    have h1 := C67_word_partial ['['] 64 [] W [] .nil .nil '[' (" ".toList ++ l) (solid_of (by simp))
      (wordChar_of_upper hw hW _ (by simp)) hne hlen (Or.inr rfl)
    rw [hw] at h1
    refine (bind_ok (h1 _)).trans ((bind_ok (reads_eat (b := []) .nil (Sp.blank (b := " ".toList) (sp_of (by decide))) '['
      (solid_of (by simp)) l hl _)).trans ?_)
    rw [if_neg hs]
    rfl
  constructor
  · intro vt
    have e : writeTraj N (.composite vt) ++ rest = [] ++ ("COMPOSITE".toList ++ ('[' :: (" ".toList ++
        (N.fmtInt vt.length ++ ("\n".toList ++ (writeTrajs N vt ++ (']' :: '\n' :: rest))))))) := by
      rw [writeTraj]
      unfold writeTrajComposite
      simp only [show "COMPOSITE[ ".toList = "COMPOSITE".toList ++ '[' :: " ".toList by decide, lit_close, List.append_assoc,
        List.cons_append, List.nil_append]
    rw [e]
    exact key _ _ (by decide) (by decide) (by decide) (by decide) (by decide) (hN.solidInt _ _)
  · intro T F
    have e : writeTraj N (.stationary T F) ++ rest = [] ++ ("STATIONARY".toList ++ ('[' :: (" ".toList ++
        (N.fmt T ++ ("\n".toList ++ (writeFrame N F ++ ("\n".toList ++ (']' :: rest)))))))) := by
      rw [writeTraj]
      unfold writeStationary
      simp only [show "STATIONARY[ ".toList = "STATIONARY".toList ++ '[' :: " ".toList by decide, lit_cl, List.append_assoc,
        List.cons_append, List.nil_append]
    rw [e]
    exact key _ _ (by decide) (by decide) (by decide) (by decide) (by decide) (hN.solid _ _)

/-! ## Joint arrays and the other types of kinfam_io.hpp -/

/-- **C73 fails for the types of kinfam_io.hpp**: `>>` reads nothing and leaves the object as it is, whatever was written. -/
theorem C73_kinfam_violated (old q : List ℝ) (hne : old ≠ q) (rest : List Char) :
    ∃ q', Reads (readKinfam old) (writeJntArray N q ++ rest) q' (writeJntArray N q ++ rest) ∧ q' ≠ q :=
  ⟨old, Reads.pure _ _, hne⟩

theorem pad_inj (hN : NumOk N rnd) (x y : ℝ) (h : pad (N.fmt x) = pad (N.fmt y)) : rnd x = rnd y := by
  have k : ∀ z, (pad (N.fmt z)).dropWhile isSpace = N.fmt z := by
    intro z
    obtain ⟨c, r, e, hc, -⟩ := hN.head z
    unfold pad
    have : ∀ n, (List.replicate n ' ' ++ N.fmt z).dropWhile isSpace = N.fmt z := by
      intro n
      induction n with
      | zero => rw [List.replicate_zero, List.nil_append, e, List.dropWhile_cons_of_neg (by simp [hc])]
      | succ n ih =>
        rw [List.replicate_succ, List.cons_append, List.dropWhile_cons_of_pos (by decide)]
        exact ih
    exact this _
  have e : N.fmt x = N.fmt y := by rw [← k x, ← k y, h]
  have hx := hN.read x [']'] ⟨']', [], rfl, by decide⟩
  have hy := hN.read y [']'] ⟨']', [], rfl, by decide⟩
  rw [e, hy] at hx
  exact (Option.some.inj (Prod.mk.inj hx).1).symm

/-- **C73, joint arrays.**  If no formatted number is wider than its field, the text determines the rounded array.  Missing:
wider numbers (the fields are not separated), reading (`C73_kinfam_violated`). -/
theorem C73_jntarray_partial (hN : NumOk N rnd) (q q' : List ℝ) (hw : ∀ x ∈ q, (N.fmt x).length ≤ 12)
    (hw' : ∀ x ∈ q', (N.fmt x).length ≤ 12) (h : writeJntArray N q = writeJntArray N q') : q.map rnd = q'.map rnd := by
  have hl : ∀ x, (N.fmt x).length ≤ 12 → (pad (N.fmt x)).length = 12 := fun x hx => by
    unfold pad
    rw [List.length_append, List.length_replicate]; omega
  unfold writeJntArray at h
  replace h := List.append_cancel_right (List.cons.inj h).2
  induction q generalizing q' with
  | nil =>
    cases q' with
    | nil => rfl
    | cons y ys =>
      have := congrArg List.length h
      simp [hl y (hw' y (by simp))] at this
      omega
  | cons x xs ih =>
    cases q' with
    | nil =>
      have := congrArg List.length h
      simp [hl x (hw x (by simp))] at this
      try omega
    | cons y ys =>
      rw [List.map_cons, List.map_cons, List.flatten_cons, List.flatten_cons] at h
      have := List.append_inj h (by rw [hl x (hw x (by simp)), hl y (hw' y (by simp))])
      rw [List.map_cons, List.map_cons, pad_inj hN x y this.1, ih ys (fun z hz => hw z (by simp [hz]))
        (fun z hz => hw' z (by simp [hz])) this.2]

/-! ## Non-vacuity -/

/-- A composite of a line, a cyclic path of a point and a half circle around the origin is in the scope of
`C73_identity_partial`. -/
example : Faithful (fun x => (⌊x⌋ : ℝ)) (.composite [.line (PathLine.ofFrames 1 ⟨1, ⟨3, 0, 0⟩⟩ 1),
    .cyclic (.point 1) 2]) := by
  have r3 : ((⌊(3 : ℝ)⌋ : ℤ) : ℝ) = 3 := by exact_mod_cast congrArg (Int.cast : ℤ → ℝ) (Int.floor_intCast (R := ℝ) 3)
  have hR : rndRot (fun x => (⌊x⌋ : ℝ)) 1 = 1 := by ext <;> simp [rndRot]
  have h1 : rndFrame (fun x => (⌊x⌋ : ℝ)) 1 = 1 := by
    show (⟨rndRot _ 1, rndVec _ 0⟩ : Frame) = ⟨1, 0⟩
    rw [hR]; congr 1; ext <;> simp [rndVec]
  have h3 : rndFrame (fun x => (⌊x⌋ : ℝ)) ⟨1, ⟨3, 0, 0⟩⟩ = ⟨1, ⟨3, 0, 0⟩⟩ := by
    show (⟨rndRot _ 1, rndVec _ ⟨3, 0, 0⟩⟩ : Frame) = _
    rw [hR]; congr 1; ext <;> simp [rndVec, r3]
  refine .composite _ ?_ (by norm_num)
  intro p hp
  simp only [List.mem_cons, List.not_mem_nil, or_false] at hp
  rcases hp with rfl | rfl
  · refine .line 1 ⟨1, ⟨3, 0, 0⟩⟩ 1 ?_ (Or.inl one_pos) h1 h3 (by simp)
    refine ⟨Rot.IsProper.one, Rot.IsProper.one, Or.inr (Or.inl (by norm_num [epsilon])), ?_⟩
    show (Rot.inv 1 * 1).Resolved
    rw [Rot.inv_one, mul_one]; exact Rot.one_resolved
  · exact .cyclic _ _ (.point 1 h1) (by norm_num) (by norm_num)

end KDL.TextIo
