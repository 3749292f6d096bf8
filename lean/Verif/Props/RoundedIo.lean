import Verif.Props.MotionIo

/-!
# C73: reading and writing rounded composites

`Path::Read` builds a rounded composite from a radius, an equivalent radius, an orientation and frames; `Write` writes the
lines and circles in it as a plain composite.
-/

namespace KDL.TextIo
open PathCircle (deg2rad)

variable {N : NumIo} {rnd : ℝ → ℝ}

/-! ## Specification -/

/-- A part through the interface of paths. -/
noncomputable def partPath : PathLine ⊕ PathCircle → PathI
  | .inl l => l.toPath
  | .inr c => c.toPath

/-- The object after `Add` of several frames; `none` if one of them is refused. -/
noncomputable def addAll (r : RoundedComposite) : List Frame → Option RoundedComposite
  | [] => some r
  | F :: Fs => match r.add F with
    | (.ok _, r') => addAll r' Fs
    | _ => none

/-- Frames as written, each behind spaces. -/
noncomputable def framesText (N : NumIo) (fs : List (List Char × Frame)) : List Char := fs.flatMap fun x => x.1 ++ writeFrame N x.2

/-! ## Proofs -/

theorem comp_add (c : PathComposite) (g : PathI) : (c.add g).gv = c.gv ++ [g] := rfl

/-- The parts listed are the ones that `Add` appends. -/
theorem add_parts (r : RoundedComposite) (F : Frame) :
    (r.add F).2.comp.gv = r.comp.gv ++ (addedParts r F).map partPath := by
  unfold RoundedComposite.add addedParts
  split_ifs with h1 h2
  · simp
  · simp
  dsimp only
  by_cases h3 : (r.F_base_via.p - r.F_base_start.p).norm < 1 / 10 ^ 7
  · rw [if_pos h3, if_pos (by tauto)]; simp
  by_cases h4 : (F.p - r.F_base_via.p).norm < 1 / 10 ^ 7
  · rw [if_neg h3, if_pos h4, if_pos (by tauto)]; simp
  by_cases h5 : Real.pi - RoundedComposite.cornerAngle (r.F_base_via.p - r.F_base_start.p) (F.p - r.F_base_via.p) < 1 / 10 ^ 7
  · rw [if_neg h3, if_neg h4, if_pos h5, if_pos (by tauto)]; simp
  have h345 := not_or.mpr ⟨h3, not_or.mpr ⟨h4, h5⟩⟩
  rw [if_neg h3, if_neg h4, if_neg h5, if_neg h345]
  by_cases h6 : RoundedComposite.cornerAngle (r.F_base_via.p - r.F_base_start.p) (F.p - r.F_base_via.p) < 1 / 10 ^ 7
  · rw [if_pos h6, if_pos h6]; rfl
  rw [if_neg h6, if_neg h6]
  generalize r.radius / Real.tan _ = d
  by_cases h7 : d ≥ (r.F_base_via.p - r.F_base_start.p).norm
  · rw [if_pos h7, if_pos (Or.inl h7)]; simp
  by_cases h8 : d ≥ (F.p - r.F_base_via.p).norm
  · rw [if_neg h7, if_pos h8, if_pos (Or.inr h8)]; simp
  rw [if_neg h7, if_neg h8, if_neg (not_or.mpr ⟨h7, h8⟩)]
  cases RoundedComposite.corner r.radius r.eqradius _ d r.F_base_start r.F_base_via F with
  | none => simp
  | some x =>
    obtain ⟨l, c, e⟩ := x
    cases c <;> simp [comp_add, partPath]

theorem finish_parts (ps : List (PathLine ⊕ PathCircle)) (r : RoundedComposite) (h : r.comp.gv = ps.map partPath) :
    ∃ ps', finishRounded ps r = .rounded ps' r.finish ∧ r.finish.comp.gv = ps'.map partPath := by
  refine ⟨_, rfl, ?_⟩
  unfold RoundedComposite.finish
  split_ifs
  · simp [comp_add, h, partPath]
  · exact h

theorem readPoints_parts (n : ℕ) : ∀ (ps : List (PathLine ⊕ PathCircle)) (r : RoundedComposite) (s s' : IoState)
    (x : List (PathLine ⊕ PathCircle) × RoundedComposite), r.comp.gv = ps.map partPath → readPoints N n ps r s = .ok x s' →
    x.2.comp.gv = x.1.map partPath := by
  induction n with
  | zero =>
    intro ps r s s' x h e
    unfold readPoints at e
    cases e
    exact h
  | succ n ih =>
    intro ps r s s' x h e
    unfold readPoints at e
    change Rd.bind _ _ s = _ at e
    unfold Rd.bind at e
    cases hf : readFrame N s with
    | ok F s1 =>
      rw [hf] at e
      dsimp only at e
      have hp := add_parts r F
      revert e hp
      cases r.add F with
      | mk a b =>
        cases a with
        | ok u =>
          intro e hp
          dsimp only at e hp
          exact ih _ _ _ _ _ (by rw [hp, h, List.map_append]) e
        | nan => intro e; cases e
        | tooSmall => intro e; cases e
        | noPlane => intro e; cases e
        | notFeasible k => intro e; cases e
    | exc => rw [hf] at e; cases e
    | ub => rw [hf] at e; cases e
    | unmodelled => rw [hf] at e; cases e

theorem bind_inv {α β : Type} {m : Rd α} {f : α → Rd β} {s s' : IoState} {b : β} (h : (m >>= f) s = .ok b s') :
    ∃ a s1, m s = .ok a s1 ∧ f a s1 = .ok b s' := by
  change Rd.bind m f s = _ at h
  unfold Rd.bind at h
  cases hm : m s with
  | ok a s1 => rw [hm] at h; exact ⟨a, s1, rfl, h⟩
  | exc => rw [hm] at h; cases h
  | ub => rw [hm] at h; cases h
  | unmodelled => rw [hm] at h; cases h

/-- **C73, what a rounded composite that was read writes** are the lines and circles it consists of, for every text. -/
theorem C73_rounded_parts (s s' : IoState) (p : PathObj) (h : readRounded N s = .ok p s') :
    ∃ ps r, p = .rounded ps r ∧ r.comp.gv = ps.map partPath := by
  unfold readRounded at h
  obtain ⟨radius, s1, _, h⟩ := bind_inv h
  obtain ⟨eqradius, s2, _, h⟩ := bind_inv h
  obtain ⟨_, s3, _, h⟩ := bind_inv h
  have new : ∀ r, RoundedComposite.new radius eqradius = .ok r → r.comp.gv = [] := by
    intro r hr
    unfold RoundedComposite.new at hr
    split_ifs at hr
    cases hr
    rfl
  revert h new
  cases RoundedComposite.new radius eqradius with
  | ok r =>
    intro h new
    obtain ⟨size, s4, _, h⟩ := bind_inv h
    obtain ⟨x, s5, hx, h⟩ := bind_inv h
    obtain ⟨_, s6, _, h⟩ := bind_inv h
    obtain ⟨ps', e1, e2⟩ := finish_parts x.1 x.2 (readPoints_parts _ _ _ _ _ _ (new r rfl) hx)
    cases h
    exact ⟨ps', _, e1, e2⟩
  | nan => intro h; cases h
  | tooSmall => intro h; cases h
  | noPlane => intro h; cases h
  | notFeasible k => intro h; cases h

theorem reads_points (hN : NumOk N rnd) (rest : List Char) : ∀ (fs : List (List Char × Frame)) (ps : List (PathLine ⊕ PathCircle))
    (r r' : RoundedComposite), (∀ x ∈ fs, Sp x.1) → addAll r (fs.map fun x => rndFrame rnd x.2) = some r' →
    ∃ ps', Reads (readPoints N fs.length ps r) (framesText N fs ++ rest) (ps', r') rest
  | [], ps, r, r', _, h => by
    cases h
    exact ⟨ps, Reads.pure _ _⟩
  | (b, F) :: fs, ps, r, r', hb, h => by
    rw [List.map_cons, addAll] at h
    split at h
    · next u r1 h1 =>
      obtain ⟨ps', h2⟩ := reads_points hN rest fs (ps ++ addedParts r (rndFrame rnd F)) r1 r' (fun x hx => hb x (by simp [hx])) h
      refine ⟨ps', ?_⟩
      have e : framesText N ((b, F) :: fs) ++ rest = b ++ (writeFrame N F ++ (framesText N fs ++ rest)) := by
        simp [framesText]
      rw [e, List.length_cons]
      unfold readPoints
      refine (reads_writeFrame hN (hb (b, F) (by simp)) F _).bind ?_
      rw [h1]
      exact h2
    · cases h

theorem stops_sp {b : List Char} (hb : Sp b) (hne : b ≠ []) (l : List Char) : Stops (b ++ l) := by
  cases b with
  | nil => exact absurd rfl hne
  | cons c b =>
    refine ⟨c, b ++ l, rfl, ?_⟩
    have := hb c (by simp)
    simp only [gap, Bool.or_eq_true, decide_eq_true_eq] at this
    rcases this with (rfl | rfl) | rfl <;> decide

theorem stops_frames (fs : List (List Char × Frame)) (hb : ∀ x ∈ fs, Sp x.1) (rest : List Char) :
    Stops (framesText N fs ++ ']' :: rest) := by
  cases fs with
  | nil => exact stops_cons ']' _ (by decide)
  | cons x fs =>
    obtain ⟨b, F⟩ := x
    have e : framesText N ((b, F) :: fs) ++ ']' :: rest = b ++ ('[' :: ((writeFrame N F).tail ++ (framesText N fs ++ ']' :: rest))) := by
      simp [framesText, writeFrame]
    rw [e]
    cases b with
    | nil => exact stops_cons '[' _ (by decide)
    | cons c b => exact stops_sp (hb (c :: b, F) (by simp)) (by simp) _

theorem body_rounded (d : ℕ) : bodyPath N d "ROUNDEDCOMPOSITE".toList =
    traced "ROUNDEDCOMPOSITE" (readRounded N >>= fun p => pure (Sum.inl p)) := by
  rw [bodyPath, if_neg (by decide), if_neg (by decide), if_neg (by decide), if_pos rfl]

/-- The text of a rounded composite, with blanks. -/
noncomputable def roundedText (N : NumIo) (b1 b2 b3 b4 : List Char) (radius eqradius : ℝ) (fs : List (List Char × Frame)) (rest : List Char) :
    List Char :=
  "ROUNDEDCOMPOSITE".toList ++ ('[' :: (b1 ++ (N.fmt radius ++ (b2 ++ (N.fmt eqradius ++ (b3 ++ (writeOrient ++ (b4 ++
    (N.fmtInt fs.length ++ (framesText N fs ++ (']' :: rest)))))))))))

/-- **C73, rounded composites are read** as the object made by `Add` of the frames in turn and `Finish`, from the rounded
numbers, if the equivalent radius is positive and every frame can be added; the parts are those of the composite. Missing: that
`Write` writes this text, see `C73_rounded_violated`. -/
theorem C73_rounded_partial (hN : NumOk N rnd) (d : ℕ) (b b1 b2 b3 b4 : List Char) (hb : Sp b) (hb1 : Sp b1) (hb2 : Sp b2)
    (hb3 : Sp b3) (hb4 : Sp b4) (h2 : b2 ≠ []) (h3 : b3 ≠ []) (radius eqradius : ℝ) (hpos : 0 < rnd eqradius)
    (fs : List (List Char × Frame)) (hfs : ∀ x ∈ fs, Sp x.1) (hlen : fs.length < 2 ^ 31) (r : RoundedComposite)
    (hr : addAll ⟨.new, rnd radius, rnd eqradius, 1, 1, 0⟩ (fs.map fun x => rndFrame rnd x.2) = some r) (rest : List Char) :
    ∃ ps, r.finish.comp.gv = ps.map partPath ∧
      Reads (readPath N (d + 1)) (b ++ roundedText N b1 b2 b3 b4 radius eqradius fs rest) (.rounded ps r.finish) rest := by
  obtain ⟨ps, hp⟩ := reads_points hN (']' :: rest) fs [] ⟨.new, rnd radius, rnd eqradius, 1, 1, 0⟩ r hfs hr
  have hnew : RoundedComposite.new (rnd radius) (rnd eqradius) = .ok ⟨.new, rnd radius, rnd eqradius, 1, 1, 0⟩ := by
    unfold RoundedComposite.new; rw [if_neg (not_le.mpr hpos)]
  have R : Reads (readRounded N) (N.fmt radius ++ (b2 ++ (N.fmt eqradius ++ (b3 ++ (writeOrient ++ (b4 ++
      (N.fmtInt fs.length ++ (framesText N fs ++ (']' :: rest))))))))) (finishRounded ps r) rest := by
    unfold readRounded
    refine (reads_num hN (b := []) (by intro c hc; cases hc) radius _ (stops_sp hb2 h2 _)).bind
      ((reads_num hN hb2 eqradius _ (stops_sp hb3 h3 _)).bind ((reads_orient hb3 _).bind ?_))
    rw [hnew]
    dsimp only
    have hi := reads_integer hN (" \n".toList ++ b4) (framesText N fs ++ (']' :: rest)) fs.length (by omega) (by exact_mod_cast hlen)
      (by
        intro c hc
        rcases List.mem_append.mp hc with h | h
        · exact Sp.isSpace (sp_of (by decide)) c h
        · exact Sp.isSpace hb4 c h) (stops_frames fs hfs rest)
    rw [List.append_assoc] at hi
    refine hi.bind ?_
    rw [Int.toNat_natCast]
    exact hp.bind ((reads_close rest).bind (Reads.pure _ _))
  obtain ⟨ps', e1, e2⟩ : ∃ ps', finishRounded ps r = .rounded ps' r.finish ∧ r.finish.comp.gv = ps'.map partPath := by
    obtain ⟨ps', r', e, h⟩ := C73_rounded_parts _ _ _ (R [])
    have : finishRounded ps r = .rounded ps' r' := e
    have hr' : r' = r.finish := by
      unfold finishRounded at this
      cases this; rfl
    subst hr'
    exact ⟨ps', this, h⟩
  refine ⟨ps', e2, ?_⟩
  rw [← e1]
  unfold roundedText
  refine reads_pathI (by decide) (by decide) (by decide) (by decide) hb hb1 (hN.solid _ _) ?_
  rw [body_rounded]
  exact Reads.traced (R.bind (Reads.pure _ _))

/-- An exception of the inner part is one of `Path::Read`, with the trace left. -/
theorem rounded_exc (hN : NumOk N rnd) (d : ℕ) (b b1 : List Char) (hb : Sp b) (hb1 : Sp b1) (x : ℝ) (l : List Char) (tr : List String)
    (h : ∃ s : IoState, readRounded N (good (N.fmt x ++ l) ("ROUNDEDCOMPOSITE" :: "Path::Read" :: tr)) = .exc .planning s ∧
      s.trace = "ROUNDEDCOMPOSITE" :: "Path::Read" :: tr) :
    ∃ is, readPath N (d + 1) (good (b ++ ("ROUNDEDCOMPOSITE".toList ++ ('[' :: (b1 ++ (N.fmt x ++ l))))) tr) =
      .exc .planning ⟨is, "ROUNDEDCOMPOSITE" :: "Path::Read" :: tr⟩ := by
  rw [readPath_succ]
  obtain ⟨s, hs, ht⟩ := h
  obtain ⟨is, t⟩ := s
  dsimp only at ht
  subst ht
  refine ⟨is, bind_exc (traced_exc ?_)⟩
  have h1 := C67_word_partial ['['] 64 b "ROUNDEDCOMPOSITE".toList [] hb.blank .nil '[' (b1 ++ (N.fmt x ++ l)) (solid_of (by simp))
    (wordChar_of_upper (by decide) (W := "ROUNDEDCOMPOSITE".toList) (by decide) _ (by simp)) (by decide) (by decide) (Or.inr rfl)
  rw [show ("ROUNDEDCOMPOSITE".toList).map Char.toUpper = "ROUNDEDCOMPOSITE".toList by decide] at h1
  refine (bind_ok (h1 _)).trans ((bind_ok (reads_eat (b := []) .nil hb1.blank '[' (solid_of (by simp)) _ (hN.solid _ _) _)).trans ?_)
  rw [body_rounded]
  refine traced_exc (bind_exc ?_)
  exact hs

/-- **C73, rounded composites with an equivalent radius that is not positive** are refused with an exception, whatever comes
behind; the trace tells where. -/
theorem C73_rounded_refused (hN : NumOk N rnd) (d : ℕ) (b b1 b2 b3 b4 : List Char) (hb : Sp b) (hb1 : Sp b1) (hb2 : Sp b2)
    (hb3 : Sp b3) (h2 : b2 ≠ []) (h3 : b3 ≠ []) (radius eqradius : ℝ) (hneg : rnd eqradius ≤ 0)
    (fs : List (List Char × Frame)) (rest : List Char) (tr : List String) :
    ∃ is, readPath N (d + 1) (good (b ++ roundedText N b1 b2 b3 b4 radius eqradius fs rest) tr) =
      .exc .planning ⟨is, "ROUNDEDCOMPOSITE" :: "Path::Read" :: tr⟩ := by
  have hnew : RoundedComposite.new (rnd radius) (rnd eqradius) = .notFeasible 1 := by
    unfold RoundedComposite.new; rw [if_pos hneg]
  have R : ∀ l tr, ∃ s : IoState, readRounded N (good (N.fmt radius ++ (b2 ++ (N.fmt eqradius ++ (b3 ++ (writeOrient ++ l))))) tr) =
      .exc .planning s ∧ s.trace = tr := by
    intro l tr
    unfold readRounded
    have e1 : number N (good (N.fmt radius ++ (b2 ++ (N.fmt eqradius ++ (b3 ++ (writeOrient ++ l))))) tr) = _ :=
      reads_num hN (b := []) (by intro c hc; cases hc) radius _ (stops_sp hb2 h2 _) tr
    rw [bind_ok e1, bind_ok (reads_num hN hb2 eqradius _ (stops_sp hb3 h3 _) tr), bind_ok (reads_orient hb3 _ tr), hnew]
    exact ⟨_, rfl, rfl⟩
  unfold roundedText
  exact rounded_exc hN d b b1 hb hb1 radius _ tr (R _ _)

theorem points_refused (hN : NumOk N rnd) (b F k r2) (hb : Sp b) (more : ℕ) (rest : List Char) (tr : List String) :
    ∀ (fs : List (List Char × Frame)) (ps : List (PathLine ⊕ PathCircle)) (r r1 : RoundedComposite), (∀ x ∈ fs, Sp x.1) →
    addAll r (fs.map fun x => rndFrame rnd x.2) = some r1 → r1.add (rndFrame rnd F) = (.notFeasible k, r2) →
    ∃ s : IoState, readPoints N (fs.length + 1 + more) ps r (good (framesText N fs ++ (b ++ (writeFrame N F ++ rest))) tr) =
      .exc .planning s ∧ s.trace = tr
  | [], ps, r, r1, _, h, h1 => by
    cases h
    rw [show ([] : List (List Char × Frame)).length + 1 + more = more + 1 by simp [Nat.add_comm]]
    unfold readPoints
    have e : readFrame N (good (framesText N [] ++ (b ++ (writeFrame N F ++ rest))) tr) = _ := reads_writeFrame hN hb F rest tr
    rw [bind_ok e, h1]
    exact ⟨_, rfl, rfl⟩
  | (b0, F0) :: fs, ps, r, r1, hfs, h, h1 => by
    rw [List.map_cons, addAll] at h
    split at h
    · next u r3 h3 =>
      have ih := points_refused hN b F k r2 hb more rest tr fs (ps ++ addedParts r (rndFrame rnd F0)) r3 r1
        (fun x hx => hfs x (by simp [hx])) h h1
      have e : framesText N ((b0, F0) :: fs) ++ (b ++ (writeFrame N F ++ rest)) =
          b0 ++ (writeFrame N F0 ++ (framesText N fs ++ (b ++ (writeFrame N F ++ rest)))) := by
        simp [framesText]
      rw [e, show ((b0, F0) :: fs).length + 1 + more = (fs.length + 1 + more) + 1 by simp; omega]
      unfold readPoints
      rw [bind_ok (reads_writeFrame hN (hfs (b0, F0) (by simp)) F0 _ tr), h3]
      exact ih
    · cases h

/-- **C73, rounded composites with a point that cannot be added** are refused with an exception, at the first such point
and whatever comes behind it. -/
theorem C73_rounded_infeasible (hN : NumOk N rnd) (d : ℕ) (b b1 b2 b3 b4 b5 : List Char) (hb : Sp b) (hb1 : Sp b1) (hb2 : Sp b2)
    (hb3 : Sp b3) (hb4 : Sp b4) (hb5 : Sp b5) (h2 : b2 ≠ []) (h3 : b3 ≠ []) (radius eqradius : ℝ) (hpos : 0 < rnd eqradius)
    (fs more : List (List Char × Frame)) (hfs : ∀ x ∈ fs, Sp x.1) (hmore : ∀ x ∈ more, Sp x.1) (F : Frame)
    (hlen : (fs ++ (b5, F) :: more).length < 2 ^ 31) (r r2 : RoundedComposite) (k : ℕ)
    (hr : addAll ⟨.new, rnd radius, rnd eqradius, 1, 1, 0⟩ (fs.map fun x => rndFrame rnd x.2) = some r)
    (hF : r.add (rndFrame rnd F) = (.notFeasible k, r2)) (rest : List Char) (tr : List String) :
    ∃ is, readPath N (d + 1) (good (b ++ roundedText N b1 b2 b3 b4 radius eqradius (fs ++ (b5, F) :: more) rest) tr) =
      .exc .planning ⟨is, "ROUNDEDCOMPOSITE" :: "Path::Read" :: tr⟩ := by
  have hnew : RoundedComposite.new (rnd radius) (rnd eqradius) = .ok ⟨.new, rnd radius, rnd eqradius, 1, 1, 0⟩ := by
    unfold RoundedComposite.new; rw [if_neg (not_le.mpr hpos)]
  have hall : ∀ x ∈ fs ++ (b5, F) :: more, Sp x.1 := by
    intro x hx
    rcases List.mem_append.mp hx with h | h
    · exact hfs x h
    · rcases List.mem_cons.mp h with rfl | h
      · exact hb5
      · exact hmore x h
  unfold roundedText
  refine rounded_exc hN d b b1 hb hb1 radius _ tr ?_
  generalize "ROUNDEDCOMPOSITE" :: "Path::Read" :: tr = tr'
  unfold readRounded
  have e1 := reads_num hN (b := []) (by intro c hc; cases hc) radius (b2 ++ (N.fmt eqradius ++ (b3 ++ (writeOrient ++ (b4 ++
    (N.fmtInt (fs ++ (b5, F) :: more).length ++ (framesText N (fs ++ (b5, F) :: more) ++ (']' :: rest)))))))) (stops_sp hb2 h2 _) tr'
  rw [List.nil_append] at e1
  rw [bind_ok e1, bind_ok (reads_num hN hb2 eqradius _ (stops_sp hb3 h3 _) tr'), bind_ok (reads_orient hb3 _ tr'), hnew]
  dsimp only
  have hi := reads_integer hN (" \n".toList ++ b4) (framesText N (fs ++ (b5, F) :: more) ++ (']' :: rest))
    (fs ++ (b5, F) :: more).length (by omega) (by exact_mod_cast hlen)
    (by
      intro c hc
      rcases List.mem_append.mp hc with h | h
      · exact Sp.isSpace (sp_of (by decide)) c h
      · exact Sp.isSpace hb4 c h) (stops_frames _ hall rest) tr'
  rw [List.append_assoc] at hi
  rw [bind_ok hi, Int.toNat_natCast]
  obtain ⟨s, hs, ht⟩ := points_refused hN b5 F k r2 hb5 more.length (framesText N more ++ (']' :: rest)) tr' fs [] _ r hfs hr hF
  rw [show (fs ++ (b5, F) :: more).length = fs.length + 1 + more.length by simp; omega,
    show framesText N (fs ++ (b5, F) :: more) ++ (']' :: rest) =
      framesText N fs ++ (b5 ++ (writeFrame N F ++ (framesText N more ++ (']' :: rest)))) by simp [framesText]]
  exact ⟨s, bind_exc hs, ht⟩

/-- **C73 fails for rounded composites**: `Write` writes a composite, so that another class of object is read, without the
radius, the equivalent radius and the points; `Add` is not available for it. -/
theorem C73_rounded_violated (hN : NumOk N rnd) (ps : List (PathLine ⊕ PathCircle)) (r : RoundedComposite) (q : PathObj)
    (h : reread rnd (.rounded ps r) = some q) (b rest : List Char) (hb : Sp b) :
    (∀ qs r', q ≠ .rounded qs r') ∧
      ∃ d0, ∀ d ≥ d0, Reads (readPath N d) (b ++ (writePath N (.rounded ps r) ++ rest)) q ('\n' :: rest) := by
  refine ⟨?_, C73_path_partial hN _ q h b rest hb⟩
  rw [reread] at h
  split_ifs at h
  obtain ⟨qs, _, rfl⟩ := Option.map_eq_some_iff.1 h
  intro qs r' h
  cases h

/-! ## Non-vacuity -/

/-- Two points: a rounded composite of one line can be read. -/
example (A B : Frame) (radius eqradius : ℝ) : ∃ r, addAll ⟨.new, radius, eqradius, 1, 1, 0⟩ [A, B] = some r ∧
    r.F_base_start = A ∧ r.F_base_via = B ∧ r.nrofpoints = 2 := by
  simp [addAll, RoundedComposite.add]
/-- A rounded composite of one line can be read again (as a composite). -/
example (l : PathLine) (r : RoundedComposite) : ∃ q, reread rnd (.rounded [.inl l] r) = some q := by
  simp [reread, rereadParts, inInt]

/-- A third point at the place of the second cannot be added. -/
example (A B : Frame) (radius eqradius : ℝ) (h : (B.p - A.p).norm = 1) : ∃ r, addAll ⟨.new, radius, eqradius, 1, 1, 0⟩ [A, B] = some r ∧
    ∃ k r2, r.add B = (.notFeasible k, r2) := by
  refine ⟨⟨.new, radius, eqradius, A, B, 2⟩, by simp [addAll, RoundedComposite.add], 3,
    ⟨.new, radius, eqradius, A, B, 2⟩, ?_⟩
  unfold RoundedComposite.add
  dsimp only
  rw [if_neg (by decide), if_neg (by decide)]
  have e : (B.p - B.p).norm = 0 := by simp [Vec.norm]
  rw [h, if_neg (by norm_num), e, if_pos (by norm_num)]

end KDL.TextIo
