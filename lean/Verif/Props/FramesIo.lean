import Verif.Lemmas.TextIo
import Mathlib.Data.Nat.Digits.Defs

/-!
# C67: reading frames and related objects from text

frames_io.hpp:24–65 documents the format.  `Toks ts text`: `text` consists of the tokens `ts`, each preceded by blanks
and comments.  `NumOk N rnd`: what is assumed of the number formatting of the standard library.
-/

namespace KDL.TextIo
open PathCircle (deg2rad)

variable {N : NumIo} {rnd : ℝ → ℝ}

theorem Toks.uncons {t : List Char} {ts : List (List Char)} {l : List Char} (h : Toks (t :: ts) l) :
    ∃ b l', Blank b ∧ Toks ts l' ∧ l = b ++ (t ++ l') := by
  cases h with
  | cons b t ts l hb h => exact ⟨b, l, hb, h, rfl⟩

theorem Toks.unnil {l : List Char} (h : Toks [] l) : l = [] := by cases h; rfl

theorem Toks.split : ∀ (ts us : List (List Char)) (l : List Char), Toks (ts ++ us) l →
    ∃ l1 l2, Toks ts l1 ∧ Toks us l2 ∧ l = l1 ++ l2
  | [], us, l, h => ⟨[], l, .nil, h, rfl⟩
  | t :: ts, us, l, h => by
    obtain ⟨b, l', hb, h', rfl⟩ := Toks.uncons (t := t) (ts := ts ++ us) h
    obtain ⟨l1, l2, h1, h2, rfl⟩ := Toks.split ts us l' h'
    exact ⟨b ++ (t ++ l1), l2, .cons b t ts l1 hb h1, h2, by simp⟩

theorem Toks.append {ts us : List (List Char)} {l1 l2 : List Char} (h1 : Toks ts l1) (h2 : Toks us l2) :
    Toks (ts ++ us) (l1 ++ l2) := by
  induction h1 with
  | nil => exact h2
  | cons b t ts l hb _ ih =>
    have := Toks.cons b t (ts ++ us) (l ++ l2) hb ih
    simpa using this

theorem solid_of {c : Char} (h : c ∈ [',', ';', '[', ']']) : Solid c := by
  simp only [List.mem_cons, List.not_mem_nil, or_false] at h
  rcases h with rfl | rfl | rfl | rfl <;> exact ⟨by decide, by decide, by decide⟩

theorem reads_noWord (delim : List Char) (n : ℕ) {b : List Char} (hb : Blank b) (c : Char) (l : List Char) (hc : Solid c)
    (hd : notDelim delim (some c) = false) : Reads (eatWord delim (n + 1)) (b ++ c :: l) [] (c :: l) :=
  reads_word delim (n + 1) b [] [] hb .nil c l hc (by simp) (by simp) (Or.inr hd) (fun _ => rfl)

/-- number, blanks, separator, blanks -/
theorem reads_numSep (hN : NumOk N rnd) (x : ℝ) {b b' : List Char} (hb : Blank b) (hb' : Blank b') (d : Char)
    (hd : d ∈ [',', ';', '[', ']']) (l : List Char) (hl : SolidHead l) {β : Type} {f : ℝ → Rd β} {y : β} {r : List Char}
    (h : Reads (f (rnd x)) l y r) :
    Reads (number N >>= fun v => eat d >>= fun _ => f v) (N.fmt x ++ (b ++ (d :: (b' ++ l)))) y r := by
  have hs : d ∈ stopChars := by
    simp only [List.mem_cons, List.not_mem_nil, or_false] at hd
    rcases hd with rfl | rfl | rfl | rfl <;> decide
  refine (reads_number' hN _ x (hb.append_solid (stops_cons d _ hs))).bind ?_
  exact (reads_eat hb hb' d (solid_of hd) l hl).bind h

/-- number, blanks, closing bracket -/
theorem reads_numEnd (hN : NumOk N rnd) (x : ℝ) {b : List Char} (hb : Blank b)
    (l : List Char) {β : Type} {f : ℝ → Rd β} {y : β} {r : List Char}
    (h : Reads (f (rnd x)) l y r) :
    Reads (number N >>= fun v => eatEnd ']' >>= fun _ => f v) (N.fmt x ++ (b ++ (']' :: l))) y r := by
  refine (reads_number' hN _ x (hb.append_solid (stops_cons ']' _ (by decide)))).bind ?_
  exact (reads_eatEnd hb ']' (solid_of (by simp)) l).bind h

theorem reads_triple (hN : NumOk N rnd) (v : Vec) (text rest : List Char) (h : Toks (vecToks N v) text) :
    Reads (triple N) (text ++ rest) (rndVec rnd v) rest := by
  obtain ⟨b0, l0, hb0, h0, rfl⟩ := h.uncons
  obtain ⟨b1, l1, hb1, h1, rfl⟩ := h0.uncons
  obtain ⟨b2, l2, hb2, h2, rfl⟩ := h1.uncons
  obtain ⟨b3, l3, hb3, h3, rfl⟩ := h2.uncons
  obtain ⟨b4, l4, hb4, h4, rfl⟩ := h3.uncons
  obtain ⟨b5, l5, hb5, h5, rfl⟩ := h4.uncons
  obtain ⟨b6, l6, hb6, h6, rfl⟩ := h5.uncons
  obtain rfl := h6.unnil
  simp only [List.append_assoc, List.cons_append, List.nil_append]
  refine (reads_eat hb0 hb1 '[' (solid_of (by simp)) _ (hN.solid _ _)).bind ?_
  refine reads_numSep hN v.x hb2 hb3 ',' (by simp) _ (hN.solid _ _) ?_
  refine reads_numSep hN v.y hb4 hb5 ',' (by simp) _ (hN.solid _ _) ?_
  exact reads_numEnd hN v.z hb6 _ (Reads.pure _ _)

theorem reads_sextuple (hN : NumOk N rnd) (v w : Vec) (text rest : List Char) (h : Toks (sixToks N v w) text) :
    Reads (sextuple N) (text ++ rest) (rndVec rnd v, rndVec rnd w) rest := by
  obtain ⟨b0, l0, hb0, h0, rfl⟩ := h.uncons
  obtain ⟨b1, l1, hb1, h1, rfl⟩ := h0.uncons
  obtain ⟨b2, l2, hb2, h2, rfl⟩ := h1.uncons
  obtain ⟨b3, l3, hb3, h3, rfl⟩ := h2.uncons
  obtain ⟨b4, l4, hb4, h4, rfl⟩ := h3.uncons
  obtain ⟨b5, l5, hb5, h5, rfl⟩ := h4.uncons
  obtain ⟨b6, l6, hb6, h6, rfl⟩ := h5.uncons
  obtain ⟨b7, l7, hb7, h7, rfl⟩ := h6.uncons
  obtain ⟨b8, l8, hb8, h8, rfl⟩ := h7.uncons
  obtain ⟨b9, l9, hb9, h9, rfl⟩ := h8.uncons
  obtain ⟨b10, l10, hb10, h10, rfl⟩ := h9.uncons
  obtain ⟨b11, l11, hb11, h11, rfl⟩ := h10.uncons
  obtain ⟨b12, l12, hb12, h12, rfl⟩ := h11.uncons
  obtain rfl := h12.unnil
  simp only [List.append_assoc, List.cons_append, List.nil_append]
  refine (reads_eat hb0 hb1 '[' (solid_of (by simp)) _ (hN.solid _ _)).bind ?_
  refine reads_numSep hN v.x hb2 hb3 ',' (by simp) _ (hN.solid _ _) ?_
  refine reads_numSep hN v.y hb4 hb5 ',' (by simp) _ (hN.solid _ _) ?_
  refine reads_numSep hN v.z hb6 hb7 ',' (by simp) _ (hN.solid _ _) ?_
  refine reads_numSep hN w.x hb8 hb9 ',' (by simp) _ (hN.solid _ _) ?_
  refine reads_numSep hN w.y hb10 hb11 ',' (by simp) _ (hN.solid _ _) ?_
  exact reads_numEnd hN w.z hb12 _ (Reads.pure _ _)

/-- A text that opens with a bracket after blanks and comments. -/
theorem Toks.bracket {ts : List (List Char)} {text : List Char} (h : Toks (['['] :: ts) text) :
    ∃ b l, Blank b ∧ text = b ++ '[' :: l ∧ Toks ts l ∧ Toks (['['] :: ts) ('[' :: l) := by
  obtain ⟨b, l, hb, h', rfl⟩ := h.uncons
  exact ⟨b, l, hb, rfl, h', .cons [] ['['] ts l .nil h'⟩

/-- **C67, vectors.**  A vector in the documented form, with any spaces, tabs, newlines and comments between the tokens,
is read, whatever follows; the reading stops behind the closing bracket and the trace is as before. -/
theorem C67_vector_partial (hN : NumOk N rnd) (v : Vec) (text rest : List Char) (h : Toks (vecToks N v) text) :
    Reads (readVec N) (text ++ rest) (rndVec rnd v) rest := by
  obtain ⟨b, l, hb, rfl, ht, h'⟩ := h.bracket
  refine Reads.traced (Reads.bind (a := []) (l' := '[' :: (l ++ rest)) ?_ ?_)
  · have := reads_noWord ['[', ']'] 9 hb '[' (l ++ rest) (solid_of (by simp)) (by decide)
    simpa using this
  · rw [if_pos rfl]
    exact reads_triple hN v ('[' :: l) rest h'

/-- **C67, twists.** -/
theorem C67_twist_partial (hN : NumOk N rnd) (t : Twist) (text rest : List Char) (h : Toks (sixToks N t.vel t.rot) text) :
    Reads (readTwist N) (text ++ rest) ⟨rndVec rnd t.vel, rndVec rnd t.rot⟩ rest :=
  Reads.traced ((reads_sextuple hN _ _ text rest h).bind (Reads.pure _ _))

/-- **C67, wrenches.** -/
theorem C67_wrench_partial (hN : NumOk N rnd) (t : Wrench) (text rest : List Char)
    (h : Toks (sixToks N t.force t.torque) text) :
    Reads (readWrench N) (text ++ rest) ⟨rndVec rnd t.force, rndVec rnd t.torque⟩ rest :=
  Reads.traced ((reads_sextuple hN _ _ text rest h).bind (Reads.pure _ _))

theorem reads_row (hN : NumOk N rnd) (x y z : ℝ) {b2 b3 b4 b5 : List Char} (hb2 : Blank b2) (hb3 : Blank b3)
    (hb4 : Blank b4) (hb5 : Blank b5) (l : List Char) (hl : Stops l) :
    Reads (row N) (N.fmt x ++ (b2 ++ ',' :: (b3 ++ (N.fmt y ++ (b4 ++ ',' :: (b5 ++ (N.fmt z ++ l)))))))
      ⟨rnd x, rnd y, rnd z⟩ l := by
  refine reads_numSep hN x hb2 hb3 ',' (by simp) _ (hN.solid _ _) ?_
  refine reads_numSep hN y hb4 hb5 ',' (by simp) _ (hN.solid _ _) ?_
  exact (reads_number' hN _ z hl).bind (Reads.pure _ _)

/-- **C67, rotations** written as matrices. -/
theorem C67_rotation_partial (hN : NumOk N rnd) (R : Rot) (text rest : List Char) (h : Toks (rotToks N R) text) :
    Reads (readRot N) (text ++ rest) (rndRot rnd R) rest := by
  obtain ⟨b, l, hb, rfl, ht, h'⟩ := h.bracket
  refine Reads.traced (Reads.bind (a := []) (l' := '[' :: (l ++ rest)) ?_ ?_)
  · have := reads_noWord ['[', ']'] 9 hb '[' (l ++ rest) (solid_of (by simp)) (by decide)
    simpa using this
  rw [if_pos rfl, ← List.cons_append]
  clear h ht
  generalize '[' :: l = L at h' ⊢
  obtain ⟨b0, l0, hb0, h0, rfl⟩ := h'.uncons
  obtain ⟨b1, l1, hb1, h1, rfl⟩ := h0.uncons
  obtain ⟨b2, l2, hb2, h2, rfl⟩ := h1.uncons
  obtain ⟨b3, l3, hb3, h3, rfl⟩ := h2.uncons
  obtain ⟨b4, l4, hb4, h4, rfl⟩ := h3.uncons
  obtain ⟨b5, l5, hb5, h5, rfl⟩ := h4.uncons
  obtain ⟨b6, l6, hb6, h6, rfl⟩ := h5.uncons
  obtain ⟨b7, l7, hb7, h7, rfl⟩ := h6.uncons
  obtain ⟨b8, l8, hb8, h8, rfl⟩ := h7.uncons
  obtain ⟨b9, l9, hb9, h9, rfl⟩ := h8.uncons
  obtain ⟨b10, l10, hb10, h10, rfl⟩ := h9.uncons
  obtain ⟨b11, l11, hb11, h11, rfl⟩ := h10.uncons
  obtain ⟨b12, l12, hb12, h12, rfl⟩ := h11.uncons
  obtain ⟨b13, l13, hb13, h13, rfl⟩ := h12.uncons
  obtain ⟨b14, l14, hb14, h14, rfl⟩ := h13.uncons
  obtain ⟨b15, l15, hb15, h15, rfl⟩ := h14.uncons
  obtain ⟨b16, l16, hb16, h16, rfl⟩ := h15.uncons
  obtain ⟨b17, l17, hb17, h17, rfl⟩ := h16.uncons
  obtain ⟨b18, l18, hb18, h18, rfl⟩ := h17.uncons
  obtain rfl := h18.unnil
  simp only [List.append_assoc, List.cons_append, List.nil_append]
  refine (reads_eat hb0 hb1 '[' (solid_of (by simp)) _ (hN.solid _ _)).bind ?_
  refine (reads_row hN _ _ _ hb2 hb3 hb4 hb5 _ (hb6.append_solid (stops_cons ';' _ (by decide)))).bind ?_
  refine (reads_eat hb6 hb7 ';' (solid_of (by simp)) _ (hN.solid _ _)).bind ?_
  refine (reads_row hN _ _ _ hb8 hb9 hb10 hb11 _ (hb12.append_solid (stops_cons ';' _ (by decide)))).bind ?_
  refine (reads_eat hb12 hb13 ';' (solid_of (by simp)) _ (hN.solid _ _)).bind ?_
  refine (reads_row hN _ _ _ hb14 hb15 hb16 hb17 _ (hb18.append_solid (stops_cons ']' _ (by decide)))).bind ?_
  exact (reads_eatEnd hb18 ']' (solid_of (by simp)) _).bind (Reads.pure _ _)

/-- **C67, frames.** -/
theorem C67_frame_partial (hN : NumOk N rnd) (F : Frame) (text rest : List Char) (h : Toks (frameToks N F) text) :
    Reads (readFrame N) (text ++ rest) (rndFrame rnd F) rest := by
  obtain ⟨b, l, hb, rfl, ht, h'⟩ := h.bracket
  refine Reads.traced (Reads.bind (a := []) (l' := '[' :: (l ++ rest)) ?_ ?_)
  · have := reads_noWord ['['] 9 hb '[' (l ++ rest) (solid_of (by simp)) (by decide)
    simpa using this
  rw [if_pos rfl]
  obtain ⟨l1, l2, h1, h2, rfl⟩ := Toks.split _ _ _ ht
  obtain ⟨l3, l4, h3, h4, rfl⟩ := Toks.split _ _ _ h1
  obtain ⟨b5, l5, hb5, h5, rfl⟩ := h2.uncons
  obtain rfl := h5.unnil
  obtain ⟨b6, l6, hb6, rfl, -, h6⟩ := h3.bracket
  simp only [List.append_assoc, List.cons_append, List.nil_append]
  refine (reads_eat .nil hb6 '[' (solid_of (by simp)) ('[' :: (l6 ++ (l4 ++ (b5 ++ ']' :: rest))))
    (solid_cons _ _ (solid_of (by simp)))).bind ?_
  refine (C67_rotation_partial hN F.M ('[' :: l6) _ h6).bind ?_
  refine (C67_vector_partial hN F.p l4 _ h4).bind ?_
  exact (reads_eatEnd hb5 ']' (solid_of (by simp)) _).bind (Reads.pure _ _)

/-! ## What is written is read back -/

theorem Toks.single (b t : List Char) (hb : Blank b) : Toks [t] (b ++ t) := by
  have := Toks.cons b t [] [] hb .nil
  simpa using this

theorem Toks.lit (t : List Char) {ts : List (List Char)} {l : List Char} (h : Toks ts l) : Toks (t :: ts) (t ++ l) :=
  Toks.cons [] t ts l .nil h

theorem Toks.pad (t : List Char) {ts : List (List Char)} {l : List Char} (h : Toks ts l) :
    Toks (t :: ts) (TextIo.pad t ++ l) := by
  have := Toks.cons (List.replicate (12 - t.length) ' ') t ts l (blank_replicate _) h
  simpa [TextIo.pad] using this

theorem Toks.sp (c : Char) (hc : gap c = true) {t : List Char} {ts : List (List Char)} {l : List Char}
    (h : Toks (t :: ts) l) : Toks (t :: ts) (c :: l) := by
  obtain ⟨b, l', hb, h', rfl⟩ := h.uncons
  exact Toks.cons (c :: b) t ts l' (.space c b hc hb) h'

theorem toks_writeVec (v : Vec) : Toks (vecToks N v) (writeVec N v) := by
  have : Toks (vecToks N v) (['['] ++ (pad (N.fmt v.x) ++ ([','] ++ (pad (N.fmt v.y) ++ ([','] ++ (pad (N.fmt v.z) ++
      ([']'] ++ []))))))) :=
    .lit _ (.pad _ (.lit _ (.pad _ (.lit _ (.pad _ (.lit _ .nil))))))
  simpa [writeVec] using this

theorem toks_writeTwist (t : Twist) : Toks (sixToks N t.vel t.rot) (writeTwist N t) := by
  have : Toks (sixToks N t.vel t.rot) (['['] ++ (pad (N.fmt t.vel.x) ++ ([','] ++ (pad (N.fmt t.vel.y) ++ ([','] ++
      (pad (N.fmt t.vel.z) ++ ([','] ++ (pad (N.fmt t.rot.x) ++ ([','] ++ (pad (N.fmt t.rot.y) ++ ([','] ++
      (pad (N.fmt t.rot.z) ++ ([']'] ++ []))))))))))))) :=
    .lit _ (.pad _ (.lit _ (.pad _ (.lit _ (.pad _ (.lit _ (.pad _ (.lit _ (.pad _ (.lit _ (.pad _ (.lit _ .nil))))))))))))
  simpa [writeTwist] using this

theorem toks_writeWrench (t : Wrench) : Toks (sixToks N t.force t.torque) (writeWrench N t) := by
  have : Toks (sixToks N t.force t.torque) (['['] ++ (pad (N.fmt t.force.x) ++ ([','] ++ (pad (N.fmt t.force.y) ++ ([','] ++
      (pad (N.fmt t.force.z) ++ ([','] ++ (pad (N.fmt t.torque.x) ++ ([','] ++ (pad (N.fmt t.torque.y) ++ ([','] ++
      (pad (N.fmt t.torque.z) ++ ([']'] ++ []))))))))))))) :=
    .lit _ (.pad _ (.lit _ (.pad _ (.lit _ (.pad _ (.lit _ (.pad _ (.lit _ (.pad _ (.lit _ (.pad _ (.lit _ .nil))))))))))))
  simpa [writeWrench] using this

theorem toks_writeRot (R : Rot) : Toks (rotToks N R) (writeRot N R) := by
  have h3 : Toks [N.fmt R.m20, [','], N.fmt R.m21, [','], N.fmt R.m22, [']']]
      (pad (N.fmt R.m20) ++ ([','] ++ (pad (N.fmt R.m21) ++ ([','] ++ (pad (N.fmt R.m22) ++ ([']'] ++ [])))))) :=
    .pad _ (.lit _ (.pad _ (.lit _ (.pad _ (.lit _ .nil)))))
  have h2 := Toks.pad (N.fmt R.m10) (.lit [','] (.pad (N.fmt R.m11) (.lit [','] (.pad (N.fmt R.m12) (.lit [';']
    (.sp '\n' rfl (.sp ' ' rfl h3)))))))
  have h1 := Toks.lit ['['] (.pad (N.fmt R.m00) (.lit [','] (.pad (N.fmt R.m01) (.lit [','] (.pad (N.fmt R.m02) (.lit [';']
    (.sp '\n' rfl (.sp ' ' rfl h2))))))))
  simpa [writeRot, rotToks] using h1

theorem toks_writeFrame (F : Frame) : Toks (frameToks N F) (writeFrame N F) := by
  have h1 : Toks (vecToks N F.p) ('\n' :: writeVec N F.p) := .sp _ rfl (toks_writeVec F.p)
  have h2 := Toks.lit ['['] (((toks_writeRot (N := N) F.M).append h1).append (.lit [']'] .nil))
  simpa [writeFrame, frameToks] using h2

theorem toks_writeVec2 (v : Vec2) : Toks (vec2Toks N v) (writeVec2 N v) := by
  have : Toks (vec2Toks N v) (['['] ++ (pad (N.fmt v.x) ++ ([','] ++ (pad (N.fmt v.y) ++ ([']'] ++ []))))) :=
    .lit _ (.pad _ (.lit _ (.pad _ (.lit _ .nil))))
  simpa [writeVec2] using this

/-- **C67, round trip.**  Vectors, twists, wrenches, rotations and frames that have been written are read back up to the
rounding of the numbers, and the reading stops exactly at the end of what was written. -/
theorem C67_roundtrip (hN : NumOk N rnd) (v : Vec) (t : Twist) (w : Wrench) (R : Rot) (F : Frame) (rest : List Char) :
    Reads (readVec N) (writeVec N v ++ rest) (rndVec rnd v) rest ∧
      Reads (readTwist N) (writeTwist N t ++ rest) ⟨rndVec rnd t.vel, rndVec rnd t.rot⟩ rest ∧
      Reads (readWrench N) (writeWrench N w ++ rest) ⟨rndVec rnd w.force, rndVec rnd w.torque⟩ rest ∧
      Reads (readRot N) (writeRot N R ++ rest) (rndRot rnd R) rest ∧
      Reads (readFrame N) (writeFrame N F ++ rest) (rndFrame rnd F) rest :=
  ⟨C67_vector_partial hN v _ rest (toks_writeVec v), C67_twist_partial hN t _ rest (toks_writeTwist t),
    C67_wrench_partial hN w _ rest (toks_writeWrench w), C67_rotation_partial hN R _ rest (toks_writeRot R),
    C67_frame_partial hN F _ rest (toks_writeFrame F)⟩

/-- **C67, stability.**  If a formatted and re-read number is formatted and re-read as itself, an object that was read from
written text is, once written again, read exactly: no digit is lost in the second round. -/
theorem C67_exact (hN : NumOk N rnd) (hr : ∀ x, rnd (rnd x) = rnd x) (v : Vec) (t : Twist) (w : Wrench) (R : Rot) (F : Frame)
    (rest : List Char) :
    (∀ v', Reads (readVec N) (writeVec N v ++ rest) v' rest → Reads (readVec N) (writeVec N v' ++ rest) v' rest) ∧
      (∀ t', Reads (readTwist N) (writeTwist N t ++ rest) t' rest → Reads (readTwist N) (writeTwist N t' ++ rest) t' rest) ∧
      (∀ w', Reads (readWrench N) (writeWrench N w ++ rest) w' rest →
        Reads (readWrench N) (writeWrench N w' ++ rest) w' rest) ∧
      (∀ R', Reads (readRot N) (writeRot N R ++ rest) R' rest → Reads (readRot N) (writeRot N R' ++ rest) R' rest) ∧
      ∀ F', Reads (readFrame N) (writeFrame N F ++ rest) F' rest → Reads (readFrame N) (writeFrame N F' ++ rest) F' rest := by
  have uniq : ∀ {α : Type} {m : Rd α} {l r : List Char} {a b : α}, Reads m l a r → Reads m l b r → b = a := by
    intro α m l r a b h1 h2
    have := (h1 []).symm.trans (h2 [])
    cases this
    rfl
  obtain ⟨h1, h2, h3, h4, h5⟩ := C67_roundtrip hN v t w R F rest
  have hv : ∀ v, rndVec rnd (rndVec rnd v) = rndVec rnd v := fun v => by simp [rndVec, hr]
  have hR : rndRot rnd (rndRot rnd R) = rndRot rnd R := by simp [rndRot, hr]
  have hF : rndFrame rnd (rndFrame rnd F) = rndFrame rnd F := by simp [rndFrame, rndRot, rndVec, hr]
  obtain ⟨g1, g2, g3, g4, g5⟩ := C67_roundtrip hN (rndVec rnd v) ⟨rndVec rnd t.vel, rndVec rnd t.rot⟩
    ⟨rndVec rnd w.force, rndVec rnd w.torque⟩ (rndRot rnd R) (rndFrame rnd F) rest
  simp only [hv, hR, hF] at g1 g2 g3 g4 g5
  refine ⟨?_, ?_, ?_, ?_, ?_⟩
  · intro v' h; rw [uniq h1 h]; exact g1
  · intro v' h; rw [uniq h2 h]; exact g2
  · intro v' h; rw [uniq h3 h]; exact g3
  · intro v' h; rw [uniq h4 h]; exact g4
  · intro v' h; rw [uniq h5 h]; exact g5

/-! ## Planar objects -/

theorem reads_vec2 (hN : NumOk N rnd) (v : Vec2) (text rest : List Char) (h : Toks (vec2Toks N v) text) :
    Reads (readVec2 N) (text ++ rest) ⟨rnd v.x, rnd v.y⟩ rest := by
  obtain ⟨b0, l0, hb0, h0, rfl⟩ := h.uncons
  obtain ⟨b1, l1, hb1, h1, rfl⟩ := h0.uncons
  obtain ⟨b2, l2, hb2, h2, rfl⟩ := h1.uncons
  obtain ⟨b3, l3, hb3, h3, rfl⟩ := h2.uncons
  obtain ⟨b4, l4, hb4, h4, rfl⟩ := h3.uncons
  obtain rfl := h4.unnil
  simp only [List.append_assoc, List.cons_append, List.nil_append]
  refine Reads.traced ?_
  refine (reads_eat hb0 hb1 '[' (solid_of (by simp)) _ (hN.solid _ _)).bind ?_
  refine reads_numSep hN v.x hb2 hb3 ',' (by simp) _ (hN.solid _ _) ?_
  exact reads_numEnd hN v.y hb4 _ (Reads.pure _ _)

/-- **C67, planar vectors** are read back. -/
theorem C67_vector2 (hN : NumOk N rnd) (v : Vec2) (rest : List Char) :
    Reads (readVec2 N) (writeVec2 N v ++ rest) ⟨rnd v.x, rnd v.y⟩ rest := reads_vec2 hN v _ rest (toks_writeVec2 v)

/-- Whatever angle the text holds, the planar rotation read into keeps its value. -/
theorem reads_rot2 (hN : NumOk N rnd) (R r : Rot2D) (rest : List Char) :
    Reads (readRot2 N r) (writeRot2 N R ++ rest) r rest := by
  have e : writeRot2 N R ++ rest = '[' :: (N.fmt (R.getRot * (180 / Real.pi)) ++ ([] ++ (']' :: rest))) := by
    simp [writeRot2]
  rw [e]
  refine Reads.traced ?_
  refine (reads_eat .nil .nil '[' (solid_of (by simp)) _ (hN.solid _ _)).bind ?_
  exact reads_numEnd hN _ .nil _ (Reads.pure _ _)

/-- **C67 fails for planar rotations.**  frames_io.cpp:297 discards the value read: a rotation by a quarter turn is
written, and reading it into the identity gives the identity. -/
theorem C67_rotation2_violated (hN : NumOk N rnd) (rest : List Char) :
    ∃ R r : Rot2D, r ≠ R ∧ Reads (readRot2 N r) (writeRot2 N R ++ rest) r rest :=
  ⟨⟨0, 1⟩, ⟨1, 0⟩, by simp, reads_rot2 hN _ _ rest⟩

/-- **C67, planar frames.**  The position is read back, the rotation keeps the value of the object read into.  Missing:
the rotation. -/
theorem C67_frame2_partial (hN : NumOk N rnd) (F T : Frame2D) (rest : List Char) :
    Reads (readFrame2 N T) (writeFrame2 N F ++ rest) ⟨T.M, ⟨rnd F.p.x, rnd F.p.y⟩⟩ rest := by
  rw [writeFrame2, List.append_assoc]
  exact Reads.traced ((reads_rot2 hN F.M T.M _).bind ((C67_vector2 hN F.p rest).bind (Reads.pure _ _)))

/-! ## Words -/

/-- **C67, words.**  A word shorter than `maxsize`, followed by a blank, a comment or one of the delimiters, is read in
upper case; blanks before and behind it are skipped.  Missing: longer words, words at the end of the stream. -/
theorem C67_word_partial (delim : List Char) (maxsize : ℕ) (b0 w b : List Char) (hb0 : Blank b0) (hb : Blank b) (c : Char)
    (l : List Char) (hc : Solid c) (hw : ∀ y ∈ w, WordChar delim y) (hne : w ≠ []) (hlen : w.length < maxsize)
    (hend : b ≠ [] ∨ notDelim delim (some c) = false) :
    Reads (eatWord delim maxsize) (b0 ++ (w ++ (b ++ c :: l))) (w.map Char.toUpper) (c :: l) :=
  reads_word delim maxsize b0 w b hb0 hb c l hc hw hlen (by tauto) (fun h => absurd h hne)

theorem wordLoop_ub (delim : List Char) (b : List Char) (hb : Blank b) (c : Char) (l : List Char) (hc : Solid c)
    (tr : List String) : ∀ (w : List Char) (x : Char) (slots : ℕ) (acc : List Char), (∀ y ∈ x :: w, WordChar delim y) →
      slots ≤ w.length + 1 → eatWordLoop delim slots (some x) 0 acc (good (w ++ (b ++ c :: l)) tr) = .ub := by
  intro w
  induction w with
  | nil =>
    intro x slots acc hw hs
    obtain rfl | rfl : slots = 0 ∨ slots = 1 := by simp at hs; omega
    · rfl
    obtain ⟨m, h1, h2, h3⟩ := skipSpace_blank hb c l hc (-1) (by omega)
    rw [eatWordLoop, if_pos ⟨rfl, (hw x (by simp)).2⟩, List.nil_append,
      bind_ok (m := checkStream) (s := good (b ++ c :: l) tr) (s' := good (b ++ c :: l) tr) rfl, bind_ok (eatSpace_ok h1 tr)]
    rfl
  | cons y w ih =>
    intro x slots acc hw hs
    cases slots with
    | zero => rfl
    | succ s =>
      have h1 := skipSpace_solid y (w ++ (b ++ c :: l)) (hw y (by simp)).1 (-1)
      rw [eatWordLoop, if_pos ⟨rfl, (hw x (by simp)).2⟩, List.cons_append,
        bind_ok (m := checkStream) (s := good (y :: (w ++ (b ++ c :: l))) tr) (s' := good (y :: (w ++ (b ++ c :: l))) tr) rfl, bind_ok (eatSpace_ok h1 tr)]
      exact ih y s _ (fun z hz => hw z (by simp at hz ⊢; tauto)) (by simp at hs; omega)

/-- **C67 fails for long words.**  `EatWord` should throw `Error_BasicIO_ToBig` for a word of `maxsize` or more
characters; it writes outside of `storage` (utilities/utility_io.cxx:193, :203). -/
theorem C67_word_violated (delim : List Char) (maxsize : ℕ) (b0 w b : List Char) (hb0 : Blank b0) (hb : Blank b) (c : Char)
    (l : List Char) (hc : Solid c) (hw : ∀ y ∈ w, WordChar delim y) (hne : w ≠ []) (hlen : maxsize ≤ w.length)
    (tr : List String) : eatWord delim maxsize (good (b0 ++ (w ++ (b ++ c :: l))) tr) = .ub := by
  obtain ⟨x, w, rfl⟩ := List.exists_cons_of_ne_nil hne
  obtain ⟨m, h1, -⟩ := skipSpace_blank hb0 x (w ++ (b ++ c :: l)) (hw x (by simp)).1 (-1) (by omega)
  rw [eatWord, List.cons_append, bind_ok (eatSpace_ok h1 tr)]
  exact wordLoop_ub delim b hb c l hc tr w x maxsize [] hw (by simpa using hlen)

theorem wordLoop_failed (delim : List Char) (l : List Char) (tr : List String) : ∀ (slots : ℕ) (acc : List Char),
    eatWordLoop delim slots none 0 acc ⟨⟨l, false, true⟩, tr⟩ = .ub := by
  intro slots
  induction slots with
  | zero => intro acc; rfl
  | succ n ih =>
    intro acc
    rw [eatWordLoop, if_pos ⟨rfl, rfl⟩, bind_ok (m := checkStream) (s' := ⟨⟨l, false, true⟩, tr⟩) rfl,
      bind_ok (m := eatSpace) (s' := ⟨⟨l, false, true⟩, tr⟩) (a := (none, 0)) rfl]
    exact ih _

theorem traced_ub {α : Type} {d : String} {m : Rd α} {l : IStream} {tr : List String} (h : m ⟨l, d :: tr⟩ = .ub) :
    traced d m ⟨l, tr⟩ = .ub := by
  unfold TextIo.traced
  rw [bind_ok (m := ioTrace d) (s := ⟨l, tr⟩) (s' := ⟨l, d :: tr⟩) rfl, bind_ub h]

/-- **C67 fails for streams that have failed**, such as a file that could not be opened: reading a vector, a rotation or a
frame from it writes outside of `storage` instead of reporting an error. -/
theorem C67_failed_violated (l : List Char) (tr : List String) :
    readVec N ⟨⟨l, false, true⟩, tr⟩ = .ub ∧ readRot N ⟨⟨l, false, true⟩, tr⟩ = .ub ∧
      readFrame N ⟨⟨l, false, true⟩, tr⟩ = .ub := by
  have h : ∀ delim tr, eatWord delim 10 ⟨⟨l, false, true⟩, tr⟩ = .ub := by
    intro delim tr
    rw [eatWord, bind_ok (m := eatSpace) (s' := ⟨⟨l, false, true⟩, tr⟩) (a := (none, 0)) rfl]
    exact wordLoop_failed _ _ _ _ _
  exact ⟨traced_ub (bind_ub (h _ _)), traced_ub (bind_ub (h _ _)), traced_ub (bind_ub (h _ _))⟩

/-- Long words in front of a vector, as an instance: ten letters are too many. -/
theorem C67_vector_violated (l : List Char) (tr : List String) :
    readVec N (good ("QUATERNION[".toList ++ l) tr) = .ub := by
  refine traced_ub (bind_ub ?_)
  have := C67_word_violated ['[', ']'] 10 [] "QUATERNION".toList [] .nil .nil '[' l (solid_of (by simp))
    (by intro y hy; simp at hy; rcases hy with rfl | rfl | rfl | rfl | rfl | rfl | rfl | rfl | rfl | rfl <;>
          exact ⟨⟨by decide, by decide, by decide⟩, by decide⟩)
    (by simp) (by simp) ("Stream input Vector (vector or ZERO)" :: tr)
  simpa [good] using this

/-- A word made of letters. -/
theorem wordChar_of_upper {w : List Char} {W : List Char} (h : w.map Char.toUpper = W)
    (hW : ∀ c ∈ W, c ∉ ['[', ']', '#', '/', ' ', '\n', '\t', '\x00']) (delim : List Char)
    (hd : ∀ c ∈ delim, c = '[' ∨ c = ']') : ∀ y ∈ w, WordChar delim y := by
  intro y hy
  have hm : y.toUpper ∈ W := by rw [← h]; exact List.mem_map_of_mem hy
  have key : ∀ d ∈ ['[', ']', '#', '/', ' ', '\n', '\t', '\x00'], y ≠ d := by
    intro d hd e
    subst e
    refine hW _ hm ?_
    simp only [List.mem_cons, List.not_mem_nil, or_false] at hd
    rcases hd with rfl | rfl | rfl | rfl | rfl | rfl | rfl | rfl <;> decide
  refine ⟨⟨?_, key '#' (by simp), key '/' (by simp)⟩, ?_⟩
  · simp [gap, key ' ' (by simp), key '\n' (by simp), key '\t' (by simp)]
  · simp only [notDelim, Bool.not_eq_true', Bool.or_eq_false_iff, decide_eq_false_iff_not]
    refine ⟨key _ (by simp), ?_⟩
    rw [← Bool.not_eq_true, List.contains_iff_mem]
    intro hc
    rcases hd _ hc with e | e
    · exact key '[' (by simp) e
    · exact key ']' (by simp) e

/-- **C67, `Zero`** in any case of letters, followed by a blank, a comment or a bracket, is the zero vector.  Missing: the
word at the end of the stream. -/
theorem C67_zero_partial (b0 w b : List Char) (hb0 : Blank b0) (hw : w.map Char.toUpper = "ZERO".toList) (hb : Blank b)
    (c : Char) (l : List Char) (hc : Solid c) (hend : b ≠ [] ∨ c = '[' ∨ c = ']') :
    Reads (readVec N) (b0 ++ (w ++ (b ++ c :: l))) 0 (c :: l) := by
  have hl : w.length = 4 := by have := congrArg List.length hw; simpa using this
  have h := C67_word_partial ['[', ']'] 10 b0 w b hb0 hb c l hc (wordChar_of_upper hw (by decide) _ (by simp))
    (by rintro rfl; simp at hl) (by omega) (by rcases hend with h | rfl | rfl <;> [exact Or.inl h; exact Or.inr rfl; exact Or.inr rfl])
  refine Reads.traced (h.bind ?_)
  rw [hw, if_neg (by decide), if_pos rfl]
  exact Reads.pure _ _

/-- **C67, `Identity`.** -/
theorem C67_identity_partial (b0 w b : List Char) (hb0 : Blank b0) (hw : w.map Char.toUpper = "IDENTITY".toList)
    (hb : Blank b) (c : Char) (l : List Char) (hc : Solid c) (hend : b ≠ [] ∨ c = '[' ∨ c = ']') :
    Reads (readRot N) (b0 ++ (w ++ (b ++ c :: l))) 1 (c :: l) := by
  have hl : w.length = 8 := by have := congrArg List.length hw; simpa using this
  have h := C67_word_partial ['[', ']'] 10 b0 w b hb0 hb c l hc (wordChar_of_upper hw (by decide) _ (by simp))
    (by rintro rfl; simp at hl) (by omega) (by rcases hend with h | rfl | rfl <;> [exact Or.inl h; exact Or.inr rfl; exact Or.inr rfl])
  refine Reads.traced (h.bind ?_)
  rw [hw]
  simp only [show ¬ ("IDENTITY".toList = []) by decide, show ¬ ("IDENTITY".toList = "EULERZYX".toList) by decide,
    show ¬ ("IDENTITY".toList = "EULERZYZ".toList) by decide, show ¬ ("IDENTITY".toList = "RPY".toList) by decide,
    show ¬ ("IDENTITY".toList = "ROT".toList) by decide, if_false, if_true]
  exact Reads.pure _ _

/-- The rotation denoted by a word and three angles in degrees, frames_io.hpp:49–53. -/
inductive EulerWord : List Char → (ℝ → ℝ → ℝ → Rot) → Prop
  | zyx : EulerWord "EULERZYX".toList Rot.eulerZYX
  | zyz : EulerWord "EULERZYZ".toList Rot.eulerZYZ
  | rpy : EulerWord "RPY".toList Rot.rpy

theorem reads_wordBracket (W : List Char) (hW : ∀ c ∈ W, c ∉ ['[', ']', '#', '/', ' ', '\n', '\t', '\x00'])
    (delim : List Char) (hd : ∀ c ∈ delim, c = '[' ∨ c = ']') (hd' : '[' ∈ delim) (maxsize : ℕ)
    (b0 w text rest : List Char) (hb0 : Blank b0) (hw : w.map Char.toUpper = W) (hne : W ≠ []) (hlen : W.length < maxsize)
    (ts : List (List Char)) (h : Toks (['['] :: ts) text) :
    ∃ l, Toks (['['] :: ts) ('[' :: l) ∧
      Reads (eatWord delim maxsize) (b0 ++ (w ++ (text ++ rest))) W ('[' :: l ++ rest) := by
  have hl : w.length = W.length := by rw [← hw]; simp
  obtain ⟨b, l, hb, rfl, -, h'⟩ := h.bracket
  refine ⟨l, h', ?_⟩
  have hdd : notDelim delim (some '[') = false := by simp [notDelim, hd']
  have := C67_word_partial delim maxsize b0 w b hb0 hb '[' (l ++ rest) (solid_of (by simp)) (wordChar_of_upper hw hW _ hd)
    (by rintro rfl; exact hne (by simpa using hw.symm)) (by omega) (Or.inr hdd)
  rw [hw] at this
  simpa using this

/-- **C67, Euler and roll-pitch-yaw angles**: the word in any case of letters, followed by a vector of angles in degrees. -/
theorem C67_euler_partial (hN : NumOk N rnd) (W : List Char) (f : ℝ → ℝ → ℝ → Rot) (hf : EulerWord W f)
    (b0 w text rest : List Char) (hb0 : Blank b0) (hw : w.map Char.toUpper = W) (v : Vec) (h : Toks (vecToks N v) text) :
    Reads (readRot N) (b0 ++ (w ++ (text ++ rest)))
      (f (rnd v.x * (Real.pi / 180)) (rnd v.y * (Real.pi / 180)) (rnd v.z * (Real.pi / 180))) rest := by
  cases hf with
  | zyx =>
    obtain ⟨l, h1, h2⟩ := reads_wordBracket _ (by decide) ['[', ']'] (by simp) (by simp) 10 b0 w text rest hb0 hw (by decide)
      (by decide) _ h
    refine Reads.traced (h2.bind ?_)
    rw [if_neg (by decide), if_pos rfl]
    exact (C67_vector_partial hN v _ rest h1).bind (Reads.pure _ _)
  | zyz =>
    obtain ⟨l, h1, h2⟩ := reads_wordBracket _ (by decide) ['[', ']'] (by simp) (by simp) 10 b0 w text rest hb0 hw (by decide)
      (by decide) _ h
    refine Reads.traced (h2.bind ?_)
    rw [if_neg (by decide), if_neg (by decide), if_pos rfl]
    exact (C67_vector_partial hN v _ rest h1).bind (Reads.pure _ _)
  | rpy =>
    obtain ⟨l, h1, h2⟩ := reads_wordBracket _ (by decide) ['[', ']'] (by simp) (by simp) 10 b0 w text rest hb0 hw (by decide)
      (by decide) _ h
    refine Reads.traced (h2.bind ?_)
    rw [if_neg (by decide), if_neg (by decide), if_neg (by decide), if_pos rfl]
    exact (C67_vector_partial hN v _ rest h1).bind (Reads.pure _ _)

/-- **C67, `Rot`** followed by an axis and an angle in degrees in brackets. -/
theorem C67_rot_partial (hN : NumOk N rnd) (b0 w text rest : List Char) (hb0 : Blank b0)
    (hw : w.map Char.toUpper = "ROT".toList) (v : Vec) (angle : ℝ)
    (h : Toks (vecToks N v ++ [['['], N.fmt angle, [']']]) text) :
    Reads (readRot N) (b0 ++ (w ++ (text ++ rest))) (Rot.rot (rndVec rnd v) (rnd angle * (Real.pi / 180))) rest := by
  obtain ⟨t1, t2, h1, h2, rfl⟩ := Toks.split _ _ _ h
  obtain ⟨l, h3, h4⟩ := reads_wordBracket _ (by decide) ['[', ']'] (by simp) (by simp) 10 b0 w t1 (t2 ++ rest) hb0 hw
    (by decide) (by decide) _ h1
  rw [List.append_assoc]
  refine Reads.traced (h4.bind ?_)
  rw [if_neg (by decide), if_neg (by decide), if_neg (by decide), if_neg (by decide), if_pos rfl]
  refine (C67_vector_partial hN v _ _ h3).bind ?_
  obtain ⟨b0, l0, hb0, k0, rfl⟩ := h2.uncons
  obtain ⟨b1, l1, hb1, k1, rfl⟩ := k0.uncons
  obtain ⟨b2, l2, hb2, k2, rfl⟩ := k1.uncons
  obtain rfl := k2.unnil
  simp only [List.append_assoc, List.cons_append, List.nil_append]
  refine (reads_eat hb0 hb1 '[' (solid_of (by simp)) _ (hN.solid _ _)).bind ?_
  exact reads_numEnd hN _ hb2 _ (Reads.pure _ _)

/-- **C67, `DH`** followed by the four Denavit-Hartenberg parameters, angles in degrees. -/
theorem C67_dh_partial (hN : NumOk N rnd) (b0 w text rest : List Char) (hb0 : Blank b0)
    (hw : w.map Char.toUpper = "DH".toList) (a alpha d theta : ℝ) (h : Toks (fourToks N a alpha d theta) text) :
    Reads (readFrame N) (b0 ++ (w ++ (text ++ rest)))
      (Frame.dh (rnd a) (rnd alpha * (Real.pi / 180)) (rnd d) (rnd theta * (Real.pi / 180))) rest := by
  obtain ⟨l, h3, h4⟩ := reads_wordBracket _ (by decide) ['['] (by simp) (by simp) 10 b0 w text rest hb0 hw
    (by decide) (by decide) _ h
  refine Reads.traced (h4.bind ?_)
  rw [if_neg (by decide), if_pos rfl]
  clear h
  generalize '[' :: l = L at h3 ⊢
  have k := h3
  clear h3 h4
  obtain ⟨b0, l0, hb0, h0, rfl⟩ := k.uncons
  obtain ⟨b1, l1, hb1, h1, rfl⟩ := h0.uncons
  obtain ⟨b2, l2, hb2, h2, rfl⟩ := h1.uncons
  obtain ⟨b3, l3, hb3, h3, rfl⟩ := h2.uncons
  obtain ⟨b4, l4, hb4, h4, rfl⟩ := h3.uncons
  obtain ⟨b5, l5, hb5, h5, rfl⟩ := h4.uncons
  obtain ⟨b6, l6, hb6, h6, rfl⟩ := h5.uncons
  obtain ⟨b7, l7, hb7, h7, rfl⟩ := h6.uncons
  obtain ⟨b8, l8, hb8, h8, rfl⟩ := h7.uncons
  obtain rfl := h8.unnil
  simp only [List.append_assoc, List.cons_append, List.nil_append]
  refine (reads_eat hb0 hb1 '[' (solid_of (by simp)) _ (hN.solid _ _)).bind ?_
  refine reads_numSep hN a hb2 hb3 ',' (by simp) _ (hN.solid _ _) ?_
  refine reads_numSep hN alpha hb4 hb5 ',' (by simp) _ (hN.solid _ _) ?_
  refine reads_numSep hN d hb6 hb7 ',' (by simp) _ (hN.solid _ _) ?_
  exact reads_numEnd hN theta hb8 _ (Reads.pure _ _)

/-! ## Errors -/

theorem traced_exc {α : Type} {d : String} {m : Rd α} {l : IStream} {tr : List String} {e : IoErr} {s : IoState}
    (h : m ⟨l, d :: tr⟩ = .exc e s) : traced d m ⟨l, tr⟩ = .exc e s := by
  unfold TextIo.traced
  rw [bind_ok (m := ioTrace d) (s := ⟨l, tr⟩) (s' := ⟨l, d :: tr⟩) rfl, bind_exc h]

/-- **C67, unknown words**, short enough for `storage`: the documented exceptions, and the trace says what was being
read.  Missing: longer words. -/
theorem C67_unknown_partial (b0 w b : List Char) (hb0 : Blank b0) (hb : Blank b) (c : Char) (l : List Char) (hc : Solid c)
    (hw : ∀ y ∈ w, WordChar ['[', ']'] y) (hne : w ≠ []) (hlen : w.length < 10)
    (hend : b ≠ [] ∨ c = '[') (tr : List String) :
    (w.map Char.toUpper ≠ "ZERO".toList → readVec N (good (b0 ++ (w ++ (b ++ c :: l))) tr) =
      .exc .vectorId (good (c :: l) ("Stream input Vector (vector or ZERO)" :: tr))) ∧
    (w.map Char.toUpper ∉ ["EULERZYX".toList, "EULERZYZ".toList, "RPY".toList, "ROT".toList, "IDENTITY".toList] →
      readRot N (good (b0 ++ (w ++ (b ++ c :: l))) tr) = .exc .rotationId (good (c :: l)
        ("Stream input Rotation (Matrix or EULERZYX, EULERZYZ,RPY, ROT, IDENTITY)" :: tr))) ∧
    (w.map Char.toUpper ≠ "DH".toList → readFrame N (good (b0 ++ (w ++ (b ++ c :: l))) tr) =
      .exc .frameId (good (c :: l) ("Stream input Frame (Rotation,Vector) or DH[...]" :: tr))) := by
  have h1 := C67_word_partial ['[', ']'] 10 b0 w b hb0 hb c l hc hw hne hlen
    (by rcases hend with h | rfl <;> [exact Or.inl h; exact Or.inr rfl])
  have h2 := C67_word_partial ['['] 10 b0 w b hb0 hb c l hc
    (fun y hy => ⟨(hw y hy).1, by have := (hw y hy).2; simp [notDelim] at this ⊢; tauto⟩) hne hlen
    (by rcases hend with h | rfl <;> [exact Or.inl h; exact Or.inr rfl])
  have hm : w.map Char.toUpper ≠ [] := by simpa using hne
  refine ⟨fun h => ?_, fun h => ?_, fun h => ?_⟩
  · refine traced_exc ?_
    refine (bind_ok (h1 _)).trans ?_
    rw [if_neg hm, if_neg h]
    rfl
  · simp only [List.mem_cons, List.not_mem_nil, or_false, not_or] at h
    refine traced_exc ?_
    refine (bind_ok (h1 _)).trans ?_
    rw [if_neg hm, if_neg h.1, if_neg h.2.1, if_neg h.2.2.1, if_neg h.2.2.2.1, if_neg h.2.2.2.2]
    rfl
  · refine traced_exc ?_
    refine (bind_ok (h2 _)).trans ?_
    rw [if_neg hm, if_neg h]
    rfl

/-- **C67 fails for adjacent comments.**  Comments are allowed where blanks are; but the character behind a comment of the
kind `/* */` is not tested for opening another one (utilities/utility_io.cxx:70), so two of them in a row are an error. -/
theorem C67_comments_violated (l : List Char) (tr : List String) :
    readTwist N (good ("/*a*//*b*/[".toList ++ l) tr) =
      .exc .expDelim (good ("*b*/[".toList ++ l) ("Stream input Twist" :: tr)) := by
  have hs : skipSpace ("/*a*//*b*/[".toList ++ l) (-1) = .got '/' ("*b*/[".toList ++ l) 3 := by
    have := skipSpace_block (l := 'a' :: '*' :: '/' :: '/' :: ("*b*/[".toList ++ l)) (r := "*b*/[".toList ++ l) (m := 3)
      (c := '/') (by simp [skipComment]) (-1)
    simpa [blank] using this
  refine traced_exc (bind_exc ?_)
  unfold sextuple
  refine bind_exc ?_
  exact (bind_ok (eatSpace_ok hs _)).trans rfl

theorem wordLoop_end (delim : List Char) (tr : List String) : ∀ (w : List Char) (x : Char) (slots : ℕ) (acc : List Char),
    (∀ y ∈ x :: w, WordChar delim y) → w.length + 1 < slots →
      eatWordLoop delim slots (some x) 0 acc (good w tr) = .exc .file ⟨⟨[], true, true⟩, tr⟩ := by
  intro w
  induction w with
  | nil =>
    intro x slots acc hw hs
    obtain ⟨s, rfl⟩ : ∃ s, slots = s + 2 := ⟨slots - 2, by simp at hs; omega⟩
    rw [eatWordLoop, if_pos ⟨rfl, (hw x (by simp)).2⟩, bind_ok (m := checkStream) (s := good [] tr) (s' := good [] tr) rfl,
      bind_ok (m := eatSpace) (s := good [] tr) (s' := ⟨⟨[], true, true⟩, tr⟩) (a := (none, 0))
        (by simp [eatSpace, good, skipSpace])]
    rw [eatWordLoop, if_pos ⟨rfl, rfl⟩]
    rfl
  | cons y w ih =>
    intro x slots acc hw hs
    obtain ⟨s, rfl⟩ : ∃ s, slots = s + 1 := ⟨slots - 1, by simp at hs; omega⟩
    have h1 := skipSpace_solid y w (hw y (by simp)).1 (-1)
    rw [eatWordLoop, if_pos ⟨rfl, (hw x (by simp)).2⟩,
      bind_ok (m := checkStream) (s := good (y :: w) tr) (s' := good (y :: w) tr) rfl, bind_ok (eatSpace_ok h1 tr)]
    exact ih y s _ (fun z hz => hw z (by simp at hz ⊢; tauto)) (by simp at hs; omega)

theorem eatWord_end (delim : List Char) (maxsize : ℕ) (b w : List Char) (hb : Blank b) (hw : ∀ y ∈ w, WordChar delim y)
    (hne : w ≠ []) (hlen : w.length < maxsize) (tr : List String) :
    eatWord delim maxsize (good (b ++ w) tr) = .exc .file ⟨⟨[], true, true⟩, tr⟩ := by
  obtain ⟨x, w, rfl⟩ := List.exists_cons_of_ne_nil hne
  obtain ⟨m, h1, -⟩ := skipSpace_blank hb x w (hw x (by simp)).1 (-1) (by omega)
  rw [eatWord, bind_ok (eatSpace_ok h1 tr)]
  exact wordLoop_end delim tr w x maxsize [] hw (by simpa using hlen)

/-- **C67 fails for words at the end of the stream.**  `Zero` and `Identity` are complete inputs (frames_io.hpp:36, :56),
but with nothing behind them they raise `Error_BasicIO_File`. -/
theorem C67_end_violated (b w : List Char) (hb : Blank b) (tr : List String) :
    (w.map Char.toUpper = "ZERO".toList → ∃ s, readVec N (good (b ++ w) tr) = .exc .file s) ∧
      (w.map Char.toUpper = "IDENTITY".toList → ∃ s, readRot N (good (b ++ w) tr) = .exc .file s) := by
  constructor
  · intro h
    have hl : w.length = 4 := by have := congrArg List.length h; simpa using this
    exact ⟨_, traced_exc (bind_exc (eatWord_end ['[', ']'] 10 b w hb (wordChar_of_upper h (by decide) _ (by simp))
      (by rintro rfl; simp at hl) (by omega) _))⟩
  · intro h
    have hl : w.length = 8 := by have := congrArg List.length h; simpa using this
    exact ⟨_, traced_exc (bind_exc (eatWord_end ['[', ']'] 10 b w hb (wordChar_of_upper h (by decide) _ (by simp))
      (by rintro rfl; simp at hl) (by omega) _))⟩

/-! ## The trace, and inputs of any kind -/

/-- On return the trace is as before, after an exception entries may have been added; no undefined behaviour. -/
def Tidy {α : Type} (m : Rd α) : Prop := ∀ s, match m s with
  | .ok _ s' => s'.trace = s.trace
  | .exc _ s' => s.trace <:+ s'.trace
  | .ub => False
  | .unmodelled => False

/-- The same, with undefined behaviour and unmodelled branches allowed. -/
def Balanced {α : Type} (m : Rd α) : Prop := ∀ s, match m s with
  | .ok _ s' => s'.trace = s.trace
  | .exc _ s' => s.trace <:+ s'.trace
  | .ub => True
  | .unmodelled => True

theorem Tidy.balanced {α : Type} {m : Rd α} (h : Tidy m) : Balanced m := fun s => by
  have := h s
  revert this
  cases m s <;> simp

theorem Tidy.bind {α β : Type} {m : Rd α} {f : α → Rd β} (h : Tidy m) (h' : ∀ a, Tidy (f a)) : Tidy (m >>= f) := fun s => by
  show match Rd.bind m f s with | .ok _ s' => _ | .exc _ s' => _ | .ub => _ | .unmodelled => _
  have h1 := h s
  unfold Rd.bind
  revert h1
  cases hm : m s with
  | ok a s' =>
    intro h1
    have h2 := h' a s'
    revert h2
    dsimp only
    cases f a s' <;> simp_all
  | exc e s' => simp
  | ub => simp
  | unmodelled => simp

theorem Balanced.bind {α β : Type} {m : Rd α} {f : α → Rd β} (h : Balanced m) (h' : ∀ a, Balanced (f a)) :
    Balanced (m >>= f) := fun s => by
  show match Rd.bind m f s with | .ok _ s' => _ | .exc _ s' => _ | .ub => _ | .unmodelled => _
  have h1 := h s
  unfold Rd.bind
  revert h1
  cases hm : m s with
  | ok a s' =>
    intro h1
    have h2 := h' a s'
    revert h2
    dsimp only
    cases f a s' <;> simp_all
  | exc e s' => simp
  | ub => simp
  | unmodelled => simp

theorem Tidy.pure {α : Type} (a : α) : Tidy (pure a : Rd α) := fun _ => rfl
theorem Tidy.raise {α : Type} (e : IoErr) : Tidy (raise e : Rd α) := fun _ => List.suffix_rfl

theorem Tidy.traced {α : Type} {d : String} {m : Rd α} (h : Tidy m) : Tidy (traced d m) := fun s => by
  have e : TextIo.traced d m s = (m >>= fun a => ioTracePop >>= fun _ => Pure.pure a) { s with trace := d :: s.trace } :=
    bind_ok (m := ioTrace d) (s := s) (s' := { s with trace := d :: s.trace }) rfl
  rw [e]
  have h1 := h { s with trace := d :: s.trace }
  revert h1
  cases hm : m { s with trace := d :: s.trace } with
  | ok a s' =>
    intro h1
    rw [bind_ok hm, bind_ok (m := ioTracePop) (s := s') (s' := { s' with trace := s.trace }) (a := ())]
    · rfl
    · dsimp only at h1
      simp [ioTracePop, h1]
  | exc e s' =>
    intro h1
    rw [bind_exc hm]
    exact (List.suffix_cons d s.trace).trans h1
  | ub => exact fun h => h.elim
  | unmodelled => exact fun h => h.elim

theorem Balanced.traced {α : Type} {d : String} {m : Rd α} (h : Balanced m) : Balanced (traced d m) := fun s => by
  have e : TextIo.traced d m s = (m >>= fun a => ioTracePop >>= fun _ => Pure.pure a) { s with trace := d :: s.trace } :=
    bind_ok (m := ioTrace d) (s := s) (s' := { s with trace := d :: s.trace }) rfl
  rw [e]
  have h1 := h { s with trace := d :: s.trace }
  revert h1
  cases hm : m { s with trace := d :: s.trace } with
  | ok a s' =>
    intro h1
    rw [bind_ok hm, bind_ok (m := ioTracePop) (s := s') (s' := { s' with trace := s.trace }) (a := ())]
    · rfl
    · dsimp only at h1
      simp [ioTracePop, h1]
  | exc e s' =>
    intro h1
    rw [bind_exc hm]
    exact (List.suffix_cons d s.trace).trans h1
  | ub => intro _; rw [bind_ub hm]; trivial
  | unmodelled =>
    intro _
    have : (m >>= fun a => ioTracePop >>= fun _ => Pure.pure a) { s with trace := d :: s.trace } = .unmodelled := by
      show Rd.bind m _ _ = _
      rw [Rd.bind, hm]
    rw [this]
    trivial

theorem tidy_eatSpace : Tidy eatSpace := fun s => by
  unfold eatSpace
  split
  · next h =>
    split at h
    · exact absurd h (by simp)
    · split at h
      · cases h; rfl
      · split at h <;> first | (cases h; rfl) | exact absurd h (by simp)
  · next h =>
    split at h
    · cases h; exact List.suffix_rfl
    · split at h
      · exact absurd h (by simp)
      · split at h <;> first | (cases h; exact List.suffix_rfl) | exact absurd h (by simp)
  · next h =>
    split at h
    · exact absurd h (by simp)
    · split at h
      · exact absurd h (by simp)
      · split at h <;> exact absurd h (by simp)
  · next h =>
    split at h
    · exact absurd h (by simp)
    · split at h
      · exact absurd h (by simp)
      · split at h <;> exact absurd h (by simp)

theorem tidy_putback (c : Option Char) : Tidy (putback c) := fun s => by
  unfold putback
  by_cases h : s.is.fail = true
  · rw [if_pos h]
  · rw [if_neg h]
    cases c <;> rfl

theorem tidy_extract {α : Type} (rd : List Char → Option α × List Char) (d : α) : Tidy (extract rd d) := fun s => by
  unfold extract
  by_cases h : (s.is.eof || s.is.fail) = true
  · rw [if_pos h]
  · rw [if_neg h]
    cases s.is.rest.dropWhile isSpace with
    | nil => rfl
    | cons c r =>
      dsimp only
      obtain ⟨o, r'⟩ := rd (c :: r)
      cases o <;> rfl

theorem tidy_eat (d : Char) : Tidy (eat d) :=
  tidy_eatSpace.bind fun c => by
    split
    · exact tidy_eatSpace.bind fun d => tidy_putback _
    · exact Tidy.raise _

theorem tidy_eatEnd (d : Char) : Tidy (eatEnd d) :=
  tidy_eatSpace.bind fun c => by
    split
    · exact Tidy.pure _
    · exact Tidy.raise _

theorem balanced_word (delim : List Char) : ∀ (slots : ℕ) (c : Option Char) (n : ℤ) (w : List Char),
    Balanced (eatWordLoop delim slots c n w)
  | 0, _, _, _ => fun _ => trivial
  | slots + 1, c, n, w => by
    unfold eatWordLoop
    split
    · refine Balanced.bind (fun s => ?_) fun _ => (tidy_eatSpace.balanced).bind fun r => balanced_word delim slots _ _ _
      unfold checkStream
      by_cases h : s.is.eof = true
      · rw [if_pos h]
      · rw [if_neg h]
    · exact ((tidy_putback _).bind fun _ => Tidy.pure _).balanced

theorem balanced_eatWord (delim : List Char) (n : ℕ) : Balanced (eatWord delim n) :=
  tidy_eatSpace.balanced.bind fun _ => balanced_word _ _ _ _ _

theorem tidy_triple : Tidy (triple N) :=
  (tidy_eat _).bind fun _ => (tidy_extract _ _).bind fun _ => (tidy_eat _).bind fun _ => (tidy_extract _ _).bind fun _ =>
    (tidy_eat _).bind fun _ => (tidy_extract _ _).bind fun _ => (tidy_eatEnd _).bind fun _ => Tidy.pure _

theorem tidy_sextuple : Tidy (sextuple N) :=
  (tidy_eat _).bind fun _ => (tidy_extract _ _).bind fun _ => (tidy_eat _).bind fun _ => (tidy_extract _ _).bind fun _ =>
    (tidy_eat _).bind fun _ => (tidy_extract _ _).bind fun _ => (tidy_eat _).bind fun _ => (tidy_extract _ _).bind fun _ =>
    (tidy_eat _).bind fun _ => (tidy_extract _ _).bind fun _ => (tidy_eat _).bind fun _ => (tidy_extract _ _).bind fun _ =>
    (tidy_eatEnd _).bind fun _ => Tidy.pure _

theorem tidy_row : Tidy (row N) :=
  (tidy_extract _ _).bind fun _ => (tidy_eat _).bind fun _ => (tidy_extract _ _).bind fun _ =>
    (tidy_eat _).bind fun _ => (tidy_extract _ _).bind fun _ => Tidy.pure _

/-- **C67, any input.**  Reading a twist, a wrench or a planar object from any stream, whatever its contents and flags,
either returns with the trace as it was or throws; nothing undefined happens. -/
theorem C67_tidy : Tidy (readTwist N) ∧ Tidy (readWrench N) ∧ Tidy (readVec2 N) ∧ (∀ r, Tidy (readRot2 N r)) ∧
    ∀ T, Tidy (readFrame2 N T) := by
  have h2 : Tidy (readVec2 N) := Tidy.traced ((tidy_eat _).bind fun _ => (tidy_extract _ _).bind fun _ =>
    (tidy_eat _).bind fun _ => (tidy_extract _ _).bind fun _ => (tidy_eatEnd _).bind fun _ => Tidy.pure _)
  have h3 : ∀ r, Tidy (readRot2 N r) := fun r => Tidy.traced ((tidy_eat _).bind fun _ => (tidy_extract _ _).bind fun _ =>
    (tidy_eatEnd _).bind fun _ => Tidy.pure _)
  exact ⟨Tidy.traced (tidy_sextuple.bind fun _ => Tidy.pure _), Tidy.traced (tidy_sextuple.bind fun _ => Tidy.pure _), h2, h3,
    fun T => Tidy.traced ((h3 _).bind fun _ => h2.bind fun _ => Tidy.pure _)⟩

theorem balanced_vec : Balanced (readVec N) := by
  refine Balanced.traced ((balanced_eatWord _ _).bind fun w => ?_)
  split
  · exact tidy_triple.balanced
  · split
    · exact (Tidy.pure _).balanced
    · exact (Tidy.raise _).balanced

theorem balanced_rot : Balanced (readRot N) := by
  refine Balanced.traced ((balanced_eatWord _ _).bind fun w => ?_)
  split
  · exact ((tidy_eat _).bind fun _ => tidy_row.bind fun _ => (tidy_eat _).bind fun _ => tidy_row.bind fun _ =>
      (tidy_eat _).bind fun _ => tidy_row.bind fun _ => (tidy_eatEnd _).bind fun _ => Tidy.pure _).balanced
  · split
    · exact balanced_vec.bind fun _ => (Tidy.pure _).balanced
    · split
      · exact balanced_vec.bind fun _ => (Tidy.pure _).balanced
      · split
        · exact balanced_vec.bind fun _ => (Tidy.pure _).balanced
        · split
          · exact balanced_vec.bind fun _ => ((tidy_eat _).bind fun _ => (tidy_extract _ _).bind fun _ =>
              (tidy_eatEnd _).bind fun _ => Tidy.pure _).balanced
          · split
            · exact (Tidy.pure _).balanced
            · exact (Tidy.raise _).balanced

/-- **C67, the trace.**  From any stream: if reading a vector, a rotation or a frame returns, the trace is as it was; if it
throws, entries may have been added to it.  (Writing outside of `storage`, `C67_word_violated`, has no defined effect.) -/
theorem C67_trace_partial : Balanced (readVec N) ∧ Balanced (readRot N) ∧ Balanced (readFrame N) := by
  refine ⟨balanced_vec, balanced_rot, Balanced.traced ((balanced_eatWord _ _).bind fun w => ?_)⟩
  split
  · exact (tidy_eat _).balanced.bind fun _ => balanced_rot.bind fun _ => balanced_vec.bind fun _ =>
      ((tidy_eatEnd _).bind fun _ => Tidy.pure _).balanced
  · split
    · exact ((tidy_eat _).bind fun _ => (tidy_extract _ _).bind fun _ => (tidy_eat _).bind fun _ =>
        (tidy_extract _ _).bind fun _ => (tidy_eat _).bind fun _ => (tidy_extract _ _).bind fun _ => (tidy_eat _).bind fun _ =>
        (tidy_extract _ _).bind fun _ => (tidy_eatEnd _).bind fun _ => Tidy.pure _).balanced
    · exact (Tidy.raise _).balanced

/-- **C67, the report.**  If the reading of an object throws, `IOTraceOutput` prints what was being read, innermost first,
down to the description of the object, then what was on the stack before, and leaves the stack empty. -/
theorem C67_report {α : Type} (d : String) (m : Rd α) (hm : Balanced m) (s s' : IoState) (e : IoErr)
    (h : traced d m s = .exc e s') : ∃ x, ioTraceOutput s' = .ok (x ++ d :: s.trace) ⟨s'.is, []⟩ := by
  have hb := hm ⟨s.is, d :: s.trace⟩
  have h : Rd.bind (ioTrace d) (fun _ => Rd.bind m fun a => Rd.bind ioTracePop fun _ => pure a) s = .exc e s' := h
  rw [Rd.bind, ioTrace] at h
  dsimp only at h
  rw [Rd.bind] at h
  cases hr : m ⟨s.is, d :: s.trace⟩ with
  | ok a t =>
    rw [hr] at h hb
    dsimp only at h hb
    rw [Rd.bind, ioTracePop, hb] at h
    cases h
  | exc e' t =>
    rw [hr] at h hb
    dsimp only at h hb
    obtain ⟨x, hx⟩ := hb
    have : t = s' := (Out.exc.inj h).2
    subst this
    exact ⟨x, by rw [ioTraceOutput, ← hx]⟩
  | ub => rw [hr] at h; cases h
  | unmodelled => rw [hr] at h; cases h

/-- The report for the objects of frames_io.cpp that need no words. -/
theorem C67_report_twist (s s' : IoState) (e : IoErr) :
    (readTwist N s = .exc e s' → ∃ x, ioTraceOutput s' = .ok (x ++ "Stream input Twist" :: s.trace) ⟨s'.is, []⟩) ∧
      (readWrench N s = .exc e s' → ∃ x, ioTraceOutput s' = .ok (x ++ "Stream input Wrench" :: s.trace) ⟨s'.is, []⟩) :=
  ⟨C67_report _ _ (tidy_sextuple.bind fun _ => Tidy.pure _).balanced s s' e,
    C67_report _ _ (tidy_sextuple.bind fun _ => Tidy.pure _).balanced s s' e⟩

/-- **C67, the report line by line.**  `IOTracePopStr` with a buffer of `size` characters takes the top of the stack, keeps
as much of it as fits together with the terminating zero, and an empty stack is reported by an empty string. -/
theorem C67_popstr (size : ℤ) (hs : 0 < size) (is : IStream) (d : String) (t : List String) :
    (∃ str : String, ioTracePopStr size ⟨is, d :: t⟩ = .ok (some str) ⟨is, t⟩ ∧ str.toList <+: d.toList ∧
      (str.toList.length : ℤ) + 1 = min ((d.toList.length : ℤ) + 1) size) ∧
      ioTracePopStr size ⟨is, []⟩ = .ok (some "") ⟨is, []⟩ := by
  unfold ioTracePopStr
  rw [if_neg (by omega), if_neg (by omega)]
  refine ⟨⟨_, rfl, ?_, ?_⟩, rfl⟩
  · rw [String.toList_ofList]; exact List.take_prefix _ _
  · rw [String.toList_ofList, List.length_take]; omega

/-- If the function returns and the stream has not failed afterwards, it had not failed before, and the result has the
property. -/
def Sound {α : Type} (m : Rd α) (P : α → Prop) : Prop :=
  ∀ s a s', m s = .ok a s' → s'.is.fail = false → s.is.fail = false ∧ P a

theorem Sound.bind {α β : Type} {m : Rd α} {f : α → Rd β} {P : α → Prop} {Q : β → Prop} (h : Sound m P)
    (h' : ∀ a, Sound (f a) fun b => P a → Q b) : Sound (m >>= f) Q := by
  intro s b s'' e hs
  have e : Rd.bind m f s = .ok b s'' := e
  unfold Rd.bind at e
  cases hm : m s with
  | ok a s' =>
    rw [hm] at e
    have h2 := h' a s' b s'' e hs
    have h1 := h s a s' hm h2.1
    exact ⟨h1.1, h2.2 h1.2⟩
  | exc _ _ => rw [hm] at e; cases e
  | ub => rw [hm] at e; cases e
  | unmodelled => rw [hm] at e; cases e

theorem Sound.pure {α : Type} {a : α} {P : α → Prop} (h : P a) : Sound (pure a : Rd α) P := by
  intro s b s' e hs
  cases e
  exact ⟨hs, h⟩

theorem Sound.mono {α : Type} {m : Rd α} {P Q : α → Prop} (h : Sound m P) (h' : ∀ a, P a → Q a) : Sound m Q :=
  fun s a s' e hs => ⟨(h s a s' e hs).1, h' _ (h s a s' e hs).2⟩

theorem Sound.traced {α : Type} {d : String} {m : Rd α} {P : α → Prop} (h : Sound m P) : Sound (traced d m) P := by
  have h0 : Sound (ioTrace d) fun _ => True := by
    intro s a s' e hs; cases e; exact ⟨hs, trivial⟩
  have h1 : Sound ioTracePop fun _ => True := by
    intro s a s' e hs
    unfold ioTracePop at e
    split at e
    · cases e
    · cases e; exact ⟨hs, trivial⟩
  exact h0.bind fun _ => (h.bind fun a => h1.bind fun _ => Sound.pure fun _ ha => ha).mono fun _ h _ => h

theorem sound_eatSpace : Sound eatSpace fun _ => True := by
  intro s a s' e hs
  unfold eatSpace at e
  split at e
  · cases e
  · split at e
    · cases e; exact ⟨hs, trivial⟩
    · next h => exact ⟨by simpa using h, trivial⟩

theorem sound_putback (c : Option Char) : Sound (putback c) fun _ => True := by
  intro s a s' e hs
  unfold putback at e
  split at e
  · cases e; exact ⟨hs, trivial⟩
  · next h => exact ⟨by simpa using h, trivial⟩

theorem sound_raise {α : Type} (e : IoErr) {P : α → Prop} : Sound (raise e : Rd α) P := by
  intro s a s' h hs; cases h

theorem sound_eat (d : Char) : Sound (eat d) fun _ => True :=
  (sound_eatSpace.bind fun c => by
    split
    · exact sound_eatSpace.bind fun d => (sound_putback _).mono fun _ _ _ _ => trivial
    · exact sound_raise _)

theorem sound_eatEnd (d : Char) : Sound (eatEnd d) fun _ => True :=
  (sound_eatSpace.bind fun c => by
    split
    · exact Sound.pure fun _ => trivial
    · exact sound_raise _)

/-- A value that was extracted from some characters. -/
def Parsed (N : NumIo) (x : ℝ) : Prop := ∃ l r, N.read l = (some x, r)

theorem sound_number : Sound (number N) (Parsed N) := by
  intro s a s' e hs
  unfold number extract at e
  split at e
  · cases e; simp at hs
  · next h =>
    simp only [Bool.or_eq_true, not_or, Bool.not_eq_true] at h
    refine ⟨h.2, ?_⟩
    split at e
    · cases e; simp at hs
    · next c r _ =>
      split at e
      · next x r' h2 => cases e; exact ⟨_, _, h2⟩
      · cases e; simp at hs

theorem eatEnd_ok {d : Char} (hd : d ≠ '/') {s s' : IoState} (h : eatEnd d s = .ok () s') :
    s'.is.eof = false ∧ s'.is.fail = false := by
  have h : Rd.bind eatSpace _ s = .ok () s' := h
  unfold Rd.bind eatSpace at h
  split at h
  · next a s1 h1 =>
    split at h1
    · cases h1
    · split at h1
      · cases h1; cases h
      · split at h1
        · cases h1
          dsimp only at h
          split at h
          · cases h; exact ⟨rfl, rfl⟩
          · cases h
        · cases h1; cases h
        · cases h1
          have hn : ¬ (some '/' = some d) := by simpa using hd.symm
          dsimp only at h
          split at h
          · next hc => exact absurd hc hn
          · cases h
        · cases h1
  · cases h
  · cases h
  · cases h

theorem sound_sextuple : Sound (sextuple N) fun v => Parsed N v.1.x ∧ Parsed N v.1.y ∧ Parsed N v.1.z ∧
    Parsed N v.2.x ∧ Parsed N v.2.y ∧ Parsed N v.2.z :=
  (sound_eat _).bind fun _ => sound_number.bind fun _ => (sound_eat _).bind fun _ => sound_number.bind fun _ =>
    (sound_eat _).bind fun _ => sound_number.bind fun _ => (sound_eat _).bind fun _ => sound_number.bind fun _ =>
    (sound_eat _).bind fun _ => sound_number.bind fun _ => (sound_eat _).bind fun _ => sound_number.bind fun _ =>
    (sound_eatEnd _).bind fun _ => Sound.pure (by tauto)

/-- The last step is an `EatEnd`: on return no flag of the stream is set. -/
def EndsGood {α : Type} (m : Rd α) : Prop := ∀ s a s', m s = .ok a s' → s'.is.eof = false ∧ s'.is.fail = false

theorem EndsGood.bind {α β : Type} {m : Rd α} {f : α → Rd β} (h : ∀ a, EndsGood (f a)) : EndsGood (m >>= f) := by
  intro s b s'' e
  have e : Rd.bind m f s = .ok b s'' := e
  unfold Rd.bind at e
  cases hm : m s with
  | ok a s' => rw [hm] at e; exact h a s' b s'' e
  | exc _ _ => rw [hm] at e; cases e
  | ub => rw [hm] at e; cases e
  | unmodelled => rw [hm] at e; cases e

theorem EndsGood.post {α β : Type} {m : Rd α} {g : α → β} (h : EndsGood m) : EndsGood (m >>= fun a => Pure.pure (g a)) := by
  intro s b s'' e
  have e : Rd.bind m _ s = .ok b s'' := e
  unfold Rd.bind at e
  cases hm : m s with
  | ok a s' => rw [hm] at e; cases e; exact h _ _ _ hm
  | exc _ _ => rw [hm] at e; cases e
  | ub => rw [hm] at e; cases e
  | unmodelled => rw [hm] at e; cases e

theorem endsGood_eatEnd {α : Type} (a : α) : EndsGood (eatEnd ']' >>= fun _ => (Pure.pure a : Rd α)) := by
  refine EndsGood.post (g := fun _ => a) fun s u s' h => ?_
  exact eatEnd_ok (by decide) h

theorem EndsGood.traced {α : Type} {d : String} {m : Rd α} (h : EndsGood m) : EndsGood (traced d m) := by
  refine EndsGood.bind fun _ => ?_
  intro s b s'' e
  have e : Rd.bind m _ s = .ok b s'' := e
  unfold Rd.bind at e
  cases hm : m s with
  | ok a s' =>
    rw [hm] at e
    have e : Rd.bind ioTracePop _ s' = .ok b s'' := e
    unfold Rd.bind ioTracePop at e
    have := h s a s' hm
    cases ht : s'.trace with
    | nil => rw [ht] at e; cases e
    | cons x t => rw [ht] at e; cases e; exact this
  | exc _ _ => rw [hm] at e; cases e
  | ub => rw [hm] at e; cases e
  | unmodelled => rw [hm] at e; cases e

/-- **C67, what is accepted.**  If a twist or a wrench has been read from any stream, the stream had not failed before and
no flag is set afterwards, and each of the six numbers was extracted from characters of the stream. -/
theorem C67_accept (s s' : IoState) :
    (∀ t, readTwist N s = .ok t s' → s.is.fail = false ∧ s'.is.eof = false ∧ s'.is.fail = false ∧ Parsed N t.vel.x ∧
      Parsed N t.vel.y ∧ Parsed N t.vel.z ∧ Parsed N t.rot.x ∧ Parsed N t.rot.y ∧ Parsed N t.rot.z) ∧
    (∀ t, readWrench N s = .ok t s' → s.is.fail = false ∧ s'.is.eof = false ∧ s'.is.fail = false ∧ Parsed N t.force.x ∧
      Parsed N t.force.y ∧ Parsed N t.force.z ∧ Parsed N t.torque.x ∧ Parsed N t.torque.y ∧ Parsed N t.torque.z) := by
  have hg : EndsGood (sextuple N) := by
    unfold sextuple
    iterate 12 refine EndsGood.bind fun _ => ?_
    exact endsGood_eatEnd _
  constructor
  · intro t h
    have h1 : EndsGood (readTwist N) := EndsGood.traced (EndsGood.post (g := fun r => (⟨r.1, r.2⟩ : Twist)) hg)
    have h2 : Sound (readTwist N) fun t => Parsed N t.vel.x ∧ Parsed N t.vel.y ∧ Parsed N t.vel.z ∧ Parsed N t.rot.x ∧
        Parsed N t.rot.y ∧ Parsed N t.rot.z := Sound.traced (sound_sextuple.bind fun _ => Sound.pure (by tauto))
    have h3 := h1 s t s' h
    have h4 := h2 s t s' h h3.2
    exact ⟨h4.1, h3.1, h3.2, h4.2⟩
  · intro t h
    have h1 : EndsGood (readWrench N) := EndsGood.traced (EndsGood.post (g := fun r => (⟨r.1, r.2⟩ : Wrench)) hg)
    have h2 : Sound (readWrench N) fun t => Parsed N t.force.x ∧ Parsed N t.force.y ∧ Parsed N t.force.z ∧
        Parsed N t.torque.x ∧ Parsed N t.torque.y ∧ Parsed N t.torque.z :=
      Sound.traced (sound_sextuple.bind fun _ => Sound.pure (by tauto))
    have h3 := h1 s t s' h
    have h4 := h2 s t s' h h3.2
    exact ⟨h4.1, h3.1, h3.2, h4.2⟩

/-! ## Non-vacuity -/

/-- Decimal digits. -/
def decNat (n : ℕ) : List Char := if n = 0 then ['0'] else ((Nat.digits 10 n).map Nat.digitChar).reverse
/-- Value of decimal digits. -/
def valNat (l : List Char) : ℕ := Nat.ofDigits 10 (l.reverse.map fun c => c.toNat - 48)
/-- A number format with integers only. -/
noncomputable def decIo : NumIo where
  fmtInt n := (if n < 0 then ['-'] else []) ++ decNat n.natAbs
  fmt x := (if ⌊x⌋ < 0 then ['-'] else []) ++ decNat ⌊x⌋.natAbs
  readInt l := match l with
    | '-' :: r => (some (-(valNat (r.takeWhile Char.isDigit) : ℤ)), r.dropWhile Char.isDigit)
    | _ => (some (valNat (l.takeWhile Char.isDigit)), l.dropWhile Char.isDigit)
  read l := match l with
    | '-' :: r => (some (-(valNat (r.takeWhile Char.isDigit) : ℝ)), r.dropWhile Char.isDigit)
    | _ => (some (valNat (l.takeWhile Char.isDigit)), l.dropWhile Char.isDigit)

theorem digitChar_spec (d : ℕ) (h : d < 10) : (Nat.digitChar d).isDigit = true ∧ (Nat.digitChar d).toNat - 48 = d := by
  revert d
  decide

theorem decNat_digits (n : ℕ) : ∀ c ∈ decNat n, c.isDigit = true := by
  unfold decNat
  split
  · decide
  · intro c hc
    simp only [List.mem_reverse, List.mem_map] at hc
    obtain ⟨d, hd, rfl⟩ := hc
    exact (digitChar_spec d (Nat.digits_lt_base (by norm_num) hd)).1

theorem decNat_val (n : ℕ) : valNat (decNat n) = n := by
  unfold decNat valNat
  split
  · next h => rw [h]; decide
  · rw [List.reverse_reverse, List.map_map]
    conv_rhs => rw [← Nat.ofDigits_digits 10 n]
    congr 1
    rw [List.map_congr_left (g := id), List.map_id]
    intro d hd
    exact (digitChar_spec d (Nat.digits_lt_base (by norm_num) hd)).2

theorem decNat_ne (n : ℕ) : ∃ c r, decNat n = c :: r ∧ c.isDigit = true := by
  have h : decNat n ≠ [] := by
    unfold decNat
    split
    · simp
    · next h => simp [Nat.digits_ne_nil_iff_ne_zero.2 h]
  obtain ⟨c, r, e⟩ := List.exists_cons_of_ne_nil h
  exact ⟨c, r, e, decNat_digits n c (by rw [e]; simp)⟩

theorem dec_stop (n : ℕ) (l : List Char) (hl : Stops l) :
    (decNat n ++ l).takeWhile Char.isDigit = decNat n ∧ (decNat n ++ l).dropWhile Char.isDigit = l := by
  obtain ⟨c, r, rfl, hc⟩ := hl
  have hd : c.isDigit = false := by
    simp only [stopChars, List.mem_cons, List.not_mem_nil, or_false] at hc
    rcases hc with rfl | rfl | rfl | rfl | rfl | rfl | rfl | rfl | rfl <;> decide
  rw [List.takeWhile_append_of_pos (decNat_digits n), List.dropWhile_append_of_pos (decNat_digits n),
    List.takeWhile_cons_of_neg (by simp [hd]), List.dropWhile_cons_of_neg (by simp [hd])]
  simp

theorem digit_plain {c : Char} (h : c.isDigit = true) : isSpace c = false ∧ c ≠ '#' ∧ c ≠ '/' ∧ c ≠ '-' := by
  refine ⟨?_, ?_, ?_, ?_⟩
  · by_contra hc
    simp only [Bool.not_eq_false, isSpace, Bool.or_eq_true, decide_eq_true_eq] at hc
    rcases hc with ((((rfl | rfl) | rfl) | rfl) | rfl) | rfl <;> exact absurd h (by decide)
  all_goals rintro rfl; exact absurd h (by decide)

theorem decIo_ok : NumOk decIo fun x => (⌊x⌋ : ℝ) where
  head x := by
    obtain ⟨c, r, e, hc⟩ := decNat_ne ⌊x⌋.natAbs
    by_cases h : ⌊x⌋ < 0
    · exact ⟨'-', decNat ⌊x⌋.natAbs, by simp [decIo, h], by decide, by decide, by decide⟩
    · exact ⟨c, r, by simp [decIo, h, e], (digit_plain hc).1, (digit_plain hc).2.1, (digit_plain hc).2.2.1⟩
  headInt n := by
    obtain ⟨c, r, e, hc⟩ := decNat_ne n.natAbs
    by_cases h : n < 0
    · exact ⟨'-', decNat n.natAbs, by simp [decIo, h], by decide, by decide, by decide⟩
    · exact ⟨c, r, by simp [decIo, h, e], (digit_plain hc).1, (digit_plain hc).2.1, (digit_plain hc).2.2.1⟩
  read x l hl := by
    obtain ⟨h1, h2⟩ := dec_stop ⌊x⌋.natAbs l hl
    by_cases h : ⌊x⌋ < 0
    · have ha : (⌊x⌋.natAbs : ℤ) = -⌊x⌋ := by omega
      have ha : (⌊x⌋.natAbs : ℝ) = -(⌊x⌋ : ℝ) := by
        have := congrArg (Int.cast : ℤ → ℝ) ha
        rwa [Int.cast_natCast, Int.cast_neg] at this
      simp only [decIo, if_pos h, List.cons_append, List.nil_append, h1, h2, decNat_val, ha, neg_neg]
    · have ha : (⌊x⌋.natAbs : ℤ) = ⌊x⌋ := by omega
      have ha : (⌊x⌋.natAbs : ℝ) = (⌊x⌋ : ℝ) := by
        have := congrArg (Int.cast : ℤ → ℝ) ha
        rwa [Int.cast_natCast] at this
      obtain ⟨c, r, e, hc⟩ := decNat_ne ⌊x⌋.natAbs
      simp only [decIo, if_neg h, List.nil_append]
      split
      · next r' e' =>
        rw [e, List.cons_append] at e'
        exact absurd (List.cons.inj e').1 (digit_plain hc).2.2.2
      · rw [h1, h2, decNat_val, ha]
  readInt n l _ _ hl := by
    obtain ⟨h1, h2⟩ := dec_stop n.natAbs l hl
    by_cases h : n < 0
    · have ha : (n.natAbs : ℤ) = -n := by omega
      simp only [decIo, if_pos h, List.cons_append, List.nil_append, h1, h2, decNat_val, ha, neg_neg]
    · have ha : (n.natAbs : ℤ) = n := by omega
      obtain ⟨c, r, e, hc⟩ := decNat_ne n.natAbs
      simp only [decIo, if_neg h, List.nil_append]
      split
      · next r' e' =>
        rw [e, List.cons_append] at e'
        exact absurd (List.cons.inj e').1 (digit_plain hc).2.2.2
      · rw [h1, h2, decNat_val, ha]

/-- **C67, single slashes.**  A slash that opens no comment is a character like any other: it is returned, and the
character behind it is still in the stream. -/
theorem C67_slash (d : Char) (l : List Char) (h1 : d ≠ '/') (h2 : d ≠ '*') : Reads eatSpace ('/' :: d :: l) (some '/', 0) (d :: l) := by
  refine eatSpace_ok ?_
  rw [skipSpace.eq_def]
  simp [h1, h2]

/-- There is a number format with the assumed properties, among them that of `C67_exact`. -/
example : ∃ N rnd, NumOk N rnd ∧ (∀ x, rnd (rnd x) = rnd x) ∧ rnd 3 = 3 :=
  ⟨_, _, decIo_ok, fun x => by simp, by exact_mod_cast Int.floor_intCast 3⟩

/-- A frame with comments between its tokens and a word for the rotation is in the scope of the theorems. -/
example (rest : List Char) : Reads (readVec decIo) ("# position\n [1, /* y */ -2 ,3]".toList ++ rest) ⟨1, -2, 3⟩ rest := by
  have h : Toks (vecToks decIo ⟨1, -2, 3⟩) ("# position\n [1, /* y */ -2 ,3]".toList) := by
    have e1 : decIo.fmt 1 = ['1'] := by norm_num [decIo, decNat, Nat.digitChar]
    have e2 : decIo.fmt (-2) = ['-', '2'] := by
      have : ⌊(-2 : ℝ)⌋ = -2 := by exact_mod_cast Int.floor_intCast (-2)
      norm_num [decIo, decNat, Nat.digitChar, this]
    have e3 : decIo.fmt 3 = ['3'] := by
      have : ⌊(3 : ℝ)⌋ = 3 := by exact_mod_cast Int.floor_intCast 3
      norm_num [decIo, decNat, Nat.digitChar, this]
    simp only [vecToks, e1, e2, e3]
    have b1 : Blank ('#' :: (" position".toList ++ '\n' :: [' '])) := .hash _ _ (by decide) (.space _ _ rfl .nil)
    have b2 : Blank (' ' :: '/' :: '*' :: (" y ".toList ++ '*' :: '/' :: [' '])) := by
      refine .space _ _ rfl (.block _ _ ?_ (.space _ _ rfl .nil) (Or.inr ⟨' ', [], rfl, rfl⟩))
      intro u v e
      have h : '/' ∈ " y ".toList ++ ['*'] := by rw [e]; simp
      exact absurd h (by decide)
    exact .cons _ ['['] _ _ b1 (.lit ['1'] (.lit [','] (.cons _ ['-', '2'] _ _ b2 (.cons [' '] [','] _ _ (.space _ _ rfl .nil)
      (.lit ['3'] (.lit [']'] .nil))))))
  have := C67_vector_partial decIo_ok ⟨1, -2, 3⟩ _ rest h
  have e : rndVec (fun x => (⌊x⌋ : ℝ)) ⟨1, -2, 3⟩ = ⟨1, -2, 3⟩ := by
    have h2 : ⌊(-2 : ℝ)⌋ = -2 := by exact_mod_cast Int.floor_intCast (-2)
    have h3 : ⌊(3 : ℝ)⌋ = 3 := by exact_mod_cast Int.floor_intCast 3
    simp [rndVec, h2, h3]
  rwa [e] at this

/-- The words are read in any case of letters. -/
example (rest : List Char) : Reads (readRot decIo) ("Identity [".toList ++ rest) 1 ('[' :: rest) :=
  C67_identity_partial [] "Identity".toList [' '] .nil (by decide) (.space _ _ rfl .nil) '[' rest (solid_of (by simp))
    (Or.inr (Or.inl rfl))

end KDL.TextIo
