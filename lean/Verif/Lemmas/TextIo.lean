import Verif.Model.TextIo

/-! # Lemmas about text input -/

namespace KDL.TextIo

/-! ## Composition -/

theorem bind_ok {α β : Type} {m : Rd α} {f : α → Rd β} {s s' : IoState} {a : α} (h : m s = .ok a s') :
    (m >>= f) s = f a s' := by
  show Rd.bind m f s = _
  rw [Rd.bind, h]

theorem bind_exc {α β : Type} {m : Rd α} {f : α → Rd β} {s s' : IoState} {e : IoErr} (h : m s = .exc e s') :
    (m >>= f) s = .exc e s' := by
  show Rd.bind m f s = _
  rw [Rd.bind, h]

theorem bind_ub {α β : Type} {m : Rd α} {f : α → Rd β} {s : IoState} (h : m s = .ub) : (m >>= f) s = .ub := by
  show Rd.bind m f s = _
  rw [Rd.bind, h]

theorem Reads.bind {α β : Type} {m : Rd α} {f : α → Rd β} {l l' l'' : List Char} {a : α} {b : β}
    (h : Reads m l a l') (h' : Reads (f a) l' b l'') : Reads (m >>= f) l b l'' := fun tr => by
  rw [bind_ok (h tr), h' tr]

theorem Reads.pure {α : Type} (a : α) (l : List Char) : Reads (pure a : Rd α) l a l := fun _ => rfl

theorem Reads.traced {α : Type} {d : String} {m : Rd α} {l r : List Char} {a : α} (h : Reads m l a r) :
    Reads (traced d m) l a r := fun tr => by
  unfold TextIo.traced
  rw [bind_ok (m := ioTrace d) (s := good l tr) (s' := good l (d :: tr)) rfl, bind_ok (h (d :: tr)),
    bind_ok (m := ioTracePop) (s := good r (d :: tr)) (s' := good r tr) rfl]
  rfl

/-! ## Blanks -/

theorem Blank.append_solid {b : List Char} (h : Blank b) {l : List Char} (hl : Stops l) : Stops (b ++ l) := by
  cases h with
  | nil => exact hl
  | space c b hc _ =>
    refine ⟨c, b ++ l, rfl, ?_⟩
    simp only [gap, Bool.or_eq_true, decide_eq_true_eq] at hc
    rcases hc with (rfl | rfl) | rfl <;> simp [stopChars]
  | hash t b _ _ => exact ⟨'#', _, rfl, by simp [stopChars]⟩
  | slashes t b _ _ => exact ⟨'/', _, rfl, by simp [stopChars]⟩
  | block t b _ _ _ => exact ⟨'/', _, rfl, by simp [stopChars]⟩

theorem blank_replicate (n : ℕ) : Blank (List.replicate n ' ') := by
  induction n with
  | zero => exact .nil
  | succ n ih => exact .space _ _ rfl ih

theorem skipLine_text (t l : List Char) (h : '\n' ∉ t) : ∀ n, skipLine (t ++ '\n' :: l) n = some (l, n + t.length + 1) := by
  induction t with
  | nil => intro n; simp [skipLine]
  | cons c t ih =>
    intro n
    have hc : c ≠ '\n' := fun e => h (by simp [e])
    rw [List.cons_append, skipLine, if_neg hc, ih (fun e => h (by simp [e]))]
    simp; ring

theorem skipComment_text (t l : List Char) : ∀ (p : Bool) (n : ℤ), NoEnd t → (p = true → ∀ r, t ≠ '/' :: r) →
    skipComment (t ++ '*' :: '/' :: l) p n = some (l, n + t.length + 2) := by
  induction t with
  | nil =>
    intro p n _ _
    rw [List.nil_append, skipComment, if_neg (by simp), skipComment, if_pos (by simp)]
    simp; ring
  | cons c t ih =>
    intro p n h hp
    rw [List.cons_append, skipComment, if_neg, ih]
    · simp; ring
    · intro u v e
      exact h (c :: u) v (by simp [e])
    · intro hc r e
      have hc : c = '*' := by simpa using hc
      exact h [] (r ++ ['*']) (by simp [e, hc])
    · intro hh
      simp only [Bool.and_eq_true, decide_eq_true_eq] at hh
      exact hp hh.1 t (by rw [hh.2])

/-- What the program skips is what may be skipped. -/
theorem blank_eq_gap (c : Char) : blank c = gap c := rfl

theorem skipSpace_solid (c : Char) (l : List Char) (hc : Solid c) (n : ℤ) : skipSpace (c :: l) n = .got c l (n + 1) := by
  rw [skipSpace.eq_def]
  simp only [if_neg hc.2.1, if_neg hc.2.2, blank_eq_gap, hc.1, Bool.false_eq_true, if_false]

theorem skipSpace_blankChar (c : Char) (l : List Char) (hc : blank c = true) (n : ℤ) :
    skipSpace (c :: l) n = skipSpace l (n + 1) := by
  have h1 : c ≠ '#' := by rintro rfl; exact absurd hc (by decide)
  have h2 : c ≠ '/' := by rintro rfl; exact absurd hc (by decide)
  rw [skipSpace.eq_def]
  simp only [if_neg h1, if_neg h2, hc, if_true]

theorem skipSpace_hash {l r : List Char} {m : ℤ} (h : skipLine l 0 = some (r, m)) (n : ℤ) :
    skipSpace ('#' :: l) n = skipSpace r m := by
  rw [skipSpace.eq_def]
  simp only [if_true]
  split
  · next h' => rw [h] at h'; cases h'
  · next p h' => rw [h] at h'; cases h'; rfl

theorem skipSpace_slashes {l r : List Char} {m : ℤ} (h : skipLine l 0 = some (r, m)) (n : ℤ) :
    skipSpace ('/' :: '/' :: l) n = skipSpace r m := by
  rw [skipSpace.eq_def]
  simp only [if_true, show ¬ ('/' = '#') by decide, if_false]
  split
  · next h' => rw [h] at h'; cases h'
  · next p h' => rw [h] at h'; cases h'; rfl

theorem skipSpace_block {l r : List Char} {m : ℤ} {c : Char} (h : skipComment l false 0 = some (c :: r, m)) (n : ℤ) :
    skipSpace ('/' :: '*' :: l) n = if blank c then skipSpace r m else .got c r m := by
  rw [skipSpace.eq_def]
  simp only [if_true, show ¬ ('/' = '#') by decide, show ¬ ('*' = '/') by decide, if_false]
  split
  · next h' => rw [h] at h'; cases h'
  · next p h' =>
    rw [h] at h'; cases h'
    split
    · next h2 => cases h2
    · next h2 => cases h2; rfl

/-- The count is zero exactly if nothing was skipped. -/
theorem skipSpace_blank {b : List Char} (hb : Blank b) (c : Char) (l : List Char) (hc : Solid c) :
    ∀ n : ℤ, -1 ≤ n → ∃ m, skipSpace (b ++ c :: l) n = .got c l m ∧ (b = [] → m = n + 1) ∧ (b ≠ [] → 0 < m) := by
  induction hb with
  | nil => intro n _; exact ⟨n + 1, skipSpace_solid c l hc n, fun _ => rfl, fun h => absurd rfl h⟩
  | space d b hd _ ih =>
    intro n hn
    obtain ⟨m, h1, h2, h3⟩ := ih (n + 1) (by omega)
    refine ⟨m, by rw [List.cons_append, skipSpace_blankChar _ _ hd, h1], by simp, fun _ => ?_⟩
    by_cases hb : b = []
    · have := h2 hb; omega
    · exact h3 hb
  | hash t b ht _ ih =>
    intro n hn
    obtain ⟨m, h1, h2, h3⟩ := ih (0 + t.length + 1) (by omega)
    refine ⟨m, ?_, by simp, fun _ => ?_⟩
    · rw [List.cons_append, List.append_assoc, List.cons_append, skipSpace_hash (skipLine_text t (b ++ c :: l) ht 0), h1]
    · by_cases hb : b = []
      · have := h2 hb; omega
      · exact h3 hb
  | slashes t b ht _ ih =>
    intro n hn
    obtain ⟨m, h1, h2, h3⟩ := ih (0 + t.length + 1) (by omega)
    refine ⟨m, ?_, by simp, fun _ => ?_⟩
    · rw [List.cons_append, List.cons_append, List.append_assoc, List.cons_append,
        skipSpace_slashes (skipLine_text t (b ++ c :: l) ht 0), h1]
    · by_cases hb : b = []
      · have := h2 hb; omega
      · exact h3 hb
  | block t b ht hbl hb ih =>
    intro n hn
    have hs := skipComment_text t (b ++ c :: l) false 0 ht (by simp)
    have e : '/' :: '*' :: (t ++ '*' :: '/' :: b) ++ c :: l = '/' :: '*' :: (t ++ '*' :: '/' :: (b ++ c :: l)) := by simp
    rcases hb with rfl | ⟨d, r, rfl, hd⟩
    · refine ⟨0 + t.length + 2, ?_, by simp, fun _ => by omega⟩
      rw [e, skipSpace_block hs, blank_eq_gap, hc.1]
      rfl
    · obtain ⟨m, h1, h2, h3⟩ := ih (0 + t.length + 1) (by omega)
      refine ⟨m, ?_, by simp, fun _ => h3 (by simp)⟩
      rw [e, skipSpace_block (c := d) (r := r ++ c :: l) hs, blank_eq_gap, if_pos hd]
      rw [List.cons_append, skipSpace_blankChar _ _ hd] at h1
      rw [← h1]
      congr 1

/-! ## Reading functions -/

theorem eatSpace_ok {l r : List Char} {c : Char} {n : ℤ} (h : skipSpace l (-1) = .got c r n) :
    Reads eatSpace l (some c, n) r := fun tr => by
  simp only [eatSpace, good, Bool.false_eq_true, if_false, h]

theorem putback_ok (c : Char) (l : List Char) : Reads (putback (some c)) l () (c :: l) := fun tr => by
  simp [putback, good]

theorem reads_eatEnd {b : List Char} (hb : Blank b) (d : Char) (hd : Solid d) (l : List Char) :
    Reads (eatEnd d) (b ++ d :: l) () l := by
  obtain ⟨m, h, -⟩ := skipSpace_blank hb d l hd (-1) (by omega)
  refine (eatSpace_ok h).bind ?_
  rw [if_pos rfl]
  exact Reads.pure _ _

theorem reads_eat {b b' : List Char} (hb : Blank b) (hb' : Blank b') (d : Char) (hd : Solid d) (l : List Char)
    (hl : SolidHead l) : Reads (eat d) (b ++ d :: (b' ++ l)) () l := by
  obtain ⟨c, r, rfl, hc⟩ := hl
  obtain ⟨m, h, -⟩ := skipSpace_blank hb d (b' ++ c :: r) hd (-1) (by omega)
  obtain ⟨m', h', -⟩ := skipSpace_blank hb' c r hc (-1) (by omega)
  refine (eatSpace_ok h).bind ?_
  rw [if_pos rfl]
  exact (eatSpace_ok h').bind (putback_ok c r)

theorem reads_extract {α : Type} (rd : List Char → Option α × List Char) (dflt a : α) (sp f l : List Char)
    (hsp : ∀ c ∈ sp, isSpace c = true) (hf : ∃ c r, f = c :: r ∧ isSpace c = false) (hl : l ≠ [])
    (h : rd (f ++ l) = (some a, l)) : Reads (extract rd dflt) (sp ++ (f ++ l)) a l := fun tr => by
  obtain ⟨c, r, rfl, hc⟩ := hf
  have hd : (sp ++ (c :: r ++ l)).dropWhile isSpace = c :: (r ++ l) := by
    rw [List.dropWhile_append_of_pos hsp, List.cons_append, List.dropWhile_cons_of_neg (by simp [hc])]
  have hle : l.isEmpty = false := by simpa using hl
  simp only [extract, good, Bool.or_false, Bool.false_eq_true, if_false, hd]
  rw [List.cons_append] at h
  simp only [h, hle]

theorem Stops.ne_nil {l : List Char} (h : Stops l) : l ≠ [] := by
  obtain ⟨c, r, rfl, -⟩ := h; simp

variable {N : NumIo} {rnd : ℝ → ℝ}

theorem reads_number (hN : NumOk N rnd) (sp l : List Char) (x : ℝ) (hsp : ∀ c ∈ sp, isSpace c = true) (hl : Stops l) :
    Reads (number N) (sp ++ (N.fmt x ++ l)) (rnd x) l := by
  obtain ⟨c, r, h1, h2, -⟩ := hN.head x
  exact reads_extract _ _ _ sp (N.fmt x) l hsp ⟨c, r, h1, h2⟩ hl.ne_nil (hN.read x l hl)

theorem reads_number' (hN : NumOk N rnd) (l : List Char) (x : ℝ) (hl : Stops l) :
    Reads (number N) (N.fmt x ++ l) (rnd x) l := reads_number hN [] l x (by simp) hl

theorem reads_integer (hN : NumOk N rnd) (sp l : List Char) (n : ℤ) (h1 : -2 ^ 31 ≤ n) (h2 : n < 2 ^ 31)
    (hsp : ∀ c ∈ sp, isSpace c = true) (hl : Stops l) :
    Reads (integer N) (sp ++ (N.fmtInt n ++ l)) n l := by
  obtain ⟨c, r, h3, h4, -⟩ := hN.headInt n
  exact reads_extract _ _ _ sp (N.fmtInt n) l hsp ⟨c, r, h3, h4⟩ hl.ne_nil (hN.readInt n l h1 h2 hl)

theorem reads_boolean (hN : NumOk N rnd) (l : List Char) (b : Bool) (hl : Stops l) :
    Reads (boolean N) (N.fmtInt (if b then 1 else 0) ++ l) b l := by
  obtain ⟨c, r, h3, h4, -⟩ := hN.headInt (if b then 1 else 0)
  refine reads_extract _ _ _ [] _ l (by simp) ⟨c, r, h3, h4⟩ hl.ne_nil ?_
  rw [hN.readInt _ l (by cases b <;> norm_num) (by cases b <;> norm_num) hl]
  cases b <;> rfl

theorem isSpace_false_blank {c : Char} (h : isSpace c = false) : blank c = false := by
  simp only [isSpace, Bool.or_eq_false_iff] at h
  simp only [blank, Bool.or_eq_false_iff]
  tauto

theorem NumOk.solid (hN : NumOk N rnd) (x : ℝ) (l : List Char) : SolidHead (N.fmt x ++ l) := by
  obtain ⟨c, r, h1, h2, h3, h4⟩ := hN.head x
  exact ⟨c, r ++ l, by rw [h1]; rfl, isSpace_false_blank h2, h3, h4⟩

theorem NumOk.solidInt (hN : NumOk N rnd) (n : ℤ) (l : List Char) : SolidHead (N.fmtInt n ++ l) := by
  obtain ⟨c, r, h1, h2, h3, h4⟩ := hN.headInt n
  exact ⟨c, r ++ l, by rw [h1]; rfl, isSpace_false_blank h2, h3, h4⟩

theorem stops_cons (c : Char) (l : List Char) (h : c ∈ stopChars) : Stops (c :: l) := ⟨c, l, rfl, h⟩
theorem solid_cons (c : Char) (l : List Char) (h : Solid c) : SolidHead (c :: l) := ⟨c, l, rfl, h⟩

/-! ## Words -/

/-- Characters of which words consist. -/
def WordChar (delim : List Char) (c : Char) : Prop := Solid c ∧ notDelim delim (some c) = true

theorem reads_wordLoop (delim : List Char) (b : List Char) (hb : Blank b) (c : Char) (l : List Char) (hc : Solid c)
    (hend : b ≠ [] ∨ notDelim delim (some c) = false) :
    ∀ (w : List Char) (x : Char) (slots : ℕ) (acc : List Char), (∀ y ∈ x :: w, WordChar delim y) →
      w.length + 1 < slots →
      Reads (eatWordLoop delim slots (some x) 0 acc) (w ++ (b ++ c :: l)) (acc ++ (x :: w).map Char.toUpper) (c :: l) := by
  intro w
  induction w with
  | nil =>
    intro x slots acc hw hs
    obtain ⟨s, rfl⟩ : ∃ s, slots = s + 2 := ⟨slots - 2, by simp at hs; omega⟩
    obtain ⟨m, h1, h2, h3⟩ := skipSpace_blank hb c l hc (-1) (by omega)
    rw [eatWordLoop, if_pos ⟨rfl, (hw x (by simp)).2⟩]
    refine Reads.bind (l' := b ++ c :: l) (a := ()) (fun tr => rfl) ((eatSpace_ok h1).bind ?_)
    dsimp only
    rw [eatWordLoop, if_neg]
    · exact (putback_ok c l).bind (Reads.pure _ _)
    · rintro ⟨rfl, h5⟩
      rcases hend with h | h
      · exact absurd (h3 h) (by norm_num)
      · rw [h] at h5; exact absurd h5 (by simp)
  | cons y w ih =>
    intro x slots acc hw hs
    obtain ⟨s, rfl⟩ : ∃ s, slots = s + 1 := ⟨slots - 1, by simp at hs; omega⟩
    have h1 := skipSpace_solid y (w ++ (b ++ c :: l)) (hw y (by simp)).1 (-1)
    rw [eatWordLoop, if_pos ⟨rfl, (hw x (by simp)).2⟩]
    refine Reads.bind (l' := y :: (w ++ (b ++ c :: l))) (a := ()) (fun tr => rfl) ((eatSpace_ok h1).bind ?_)
    have := ih y s (acc ++ [x.toUpper]) (fun z hz => hw z (by simp at hz ⊢; tauto)) (by simp at hs; omega)
    simpa using this

/-- A word shorter than the array, followed by a blank or a delimiter, is read in upper case; the blanks behind it are
skipped. -/
theorem reads_word (delim : List Char) (maxsize : ℕ) (b0 w b : List Char) (hb0 : Blank b0) (hb : Blank b) (c : Char)
    (l : List Char) (hc : Solid c) (hw : ∀ y ∈ w, WordChar delim y) (hlen : w.length < maxsize)
    (hend : (w ≠ [] ∧ b ≠ []) ∨ notDelim delim (some c) = false) (hemp : w = [] → b = []) :
    Reads (eatWord delim maxsize) (b0 ++ (w ++ (b ++ c :: l))) (w.map Char.toUpper) (c :: l) := by
  cases w with
  | nil =>
    have hd : notDelim delim (some c) = false := by
      rcases hend with h | h
      · exact absurd rfl h.1
      · exact h
    rw [hemp rfl]
    obtain ⟨m, h1, -⟩ := skipSpace_blank hb0 c l hc (-1) (by omega)
    refine (eatSpace_ok h1).bind ?_
    obtain ⟨s, rfl⟩ : ∃ s, maxsize = s + 1 := ⟨maxsize - 1, by simp at hlen; omega⟩
    dsimp only
    rw [eatWordLoop, if_neg (by rintro ⟨-, h5⟩; rw [hd] at h5; exact absurd h5 (by simp))]
    exact (putback_ok c l).bind (Reads.pure _ _)
  | cons x w =>
    obtain ⟨m, h1, -⟩ := skipSpace_blank hb0 x (w ++ (b ++ c :: l)) (hw x (by simp)).1 (-1) (by omega)
    refine (eatSpace_ok h1).bind ?_
    have := reads_wordLoop delim b hb c l hc (by tauto) w x maxsize [] hw (by simpa using hlen)
    simpa using this

end KDL.TextIo
