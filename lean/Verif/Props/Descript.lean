import Verif.Lemmas.TextIo

/-! # C87: `Eat(is,descript)` (utilities/utility_io.h:48–54) -/

namespace KDL.TextIo

/-- `Follows d l r`: the text `l` begins as the description `d` says, and `r` is left.  A letter stands for itself in either case, a space
for one or more blanks and comments. -/
inductive Follows : List Char → List Char → List Char → Prop
  | nil (l) : Follows [] l l
  | letter (c y : Char) {d l r} : c ≠ ' ' → y.toUpper = c.toUpper → Follows d l r → Follows (c :: d) (y :: l) r
  | space {b d l r} : Blank b → b ≠ [] → SolidHead l → Follows d l r → Follows (' ' :: d) (b ++ l) r

theorem toUpper_space {c : Char} (h : c ≠ ' ') : c.toUpper ≠ ' ' := by
  intro e
  unfold Char.toUpper at e
  split_ifs at e with hc
  · have h1 := congrArg Char.val e
    simp at h1 hc
    have h2 : c.val = 32 - 4294967264 := by rw [← h1]; simp
    rw [h2] at hc
    exact absurd hc.1 (by decide)
  · exact h e

theorem eat_blank {b l : List Char} (hb : Blank b) (hl : SolidHead l) : ∃ n : ℤ, (b = [] → n = 0) ∧ (b ≠ [] → n ≠ 0) ∧
    ∀ {β : Type} (f : ℤ → Rd β) (tr : List String),
      (eatSpace >>= fun x => putback x.1 >>= fun _ => f x.2) (good (b ++ l) tr) = f n (good l tr) := by
  obtain ⟨c, t, rfl, hc⟩ := hl
  obtain ⟨m, h1, h2, h3⟩ := skipSpace_blank hb c t hc (-1) (by omega)
  refine ⟨m, fun e => by have := h2 e; omega, fun e => by have := h3 e; omega, fun f tr => ?_⟩
  rw [bind_ok (eatSpace_ok h1 tr), bind_ok (putback_ok c t tr)]

theorem loop_append {d l r : List Char} (h : Follows d l r) (d' : List Char) (tr : List String) :
    eatDescLoop (d ++ d') (good l tr) = eatDescLoop d' (good r tr) := by
  induction h with
  | nil => rfl
  | letter c y hc hy _ ih =>
    rw [List.cons_append, eatDescLoop, if_neg (toUpper_space hc), bind_ok (m := getc) (a := some y) (s' := good _ tr) rfl,
      if_pos (by simp [hy]), ih]
  | @space b d l r hb hne hl _ ih =>
    obtain ⟨n, -, h2, h3⟩ := eat_blank hb hl
    rw [List.cons_append, eatDescLoop, if_pos (by decide), h3 (fun n => if n = 0 then raise .notASpace else eatDescLoop (d ++ d')), if_neg (h2 hne), ih]

theorem desc_append {b d l r : List Char} (hb : Blank b) (hl : SolidHead l) (h : Follows d l r) (d' : List Char) (tr : List String) :
    eatDesc (d ++ d') (good (b ++ l) tr) = eatDescLoop d' (good r tr) := by
  obtain ⟨n, -, -, h3⟩ := eat_blank hb hl
  rw [eatDesc, h3 (fun _ => eatDescLoop (d ++ d')), loop_append h]

/-- **C87, partial.**  After blanks and comments, a text that begins as the description says is read, and what follows is left.  Missing: a
description that begins with a space (`C87_leading_violated`), since `Follows` then needs a blank at the start of a text that begins
with none. -/
theorem C87_accepts_partial {b d l r : List Char} (hb : Blank b) (hl : SolidHead l) (h : Follows d l r) : Reads (eatDesc d) (b ++ l) () r := by
  intro tr
  have := desc_append hb hl h [] tr
  rw [List.append_nil] at this
  rw [this]; rfl

/-- **C87, other characters.**  The first character that differs from the description, in more than case, is reported. -/
theorem C87_unexpected {b d l r : List Char} (hb : Blank b) (hl : SolidHead l) (c y : Char) (h : Follows d l (y :: r)) (hc : c ≠ ' ')
    (hy : y.toUpper ≠ c.toUpper) (d' : List Char) (tr : List String) :
    eatDesc (d ++ c :: d') (good (b ++ l) tr) = .exc .unexpected (good r tr) := by
  rw [desc_append hb hl h, eatDescLoop, if_neg (toUpper_space hc), bind_ok (m := getc) (a := some y) (s' := good r tr) rfl,
    if_neg (by simpa using hy)]
  rfl

/-- **C87, missing blanks.** -/
theorem C87_not_a_space {b d l r : List Char} (hb : Blank b) (hl : SolidHead l) (h : Follows d l r) (hr : SolidHead r) (d' : List Char)
    (tr : List String) : eatDesc (d ++ ' ' :: d') (good (b ++ l) tr) = .exc .notASpace (good r tr) := by
  obtain ⟨n, h1, -, h3⟩ := eat_blank (b := []) .nil hr
  rw [desc_append hb hl h, eatDescLoop, if_pos (by decide)]
  have := h3 (fun n => if n = 0 then raise .notASpace else eatDescLoop d') tr
  rw [List.nil_append] at this
  rw [this, if_pos (h1 rfl)]
  rfl

/-- **C87, end of the text.**  A text that ends before the description is reported too. -/
theorem C87_end {b d l : List Char} (hb : Blank b) (hl : SolidHead l) (h : Follows d l []) (c : Char) (d' : List Char) (tr : List String) :
    ∃ e s, eatDesc (d ++ c :: d') (good (b ++ l) tr) = .exc e s ∧ (c = ' ' → e = .notASpace) ∧ (c ≠ ' ' → e = .unexpected) := by
  rw [desc_append hb hl h, eatDescLoop]
  by_cases hc : c = ' '
  · subst hc
    rw [if_pos (by decide), bind_ok (m := eatSpace) (a := (none, 0)) (s' := ⟨⟨[], true, true⟩, tr⟩)]
    · exact ⟨_, _, rfl, fun _ => rfl, fun h => absurd rfl h⟩
    · simp [eatSpace, good, skipSpace.eq_def]
  · rw [if_neg (toUpper_space hc), bind_ok (m := getc) (a := none) (s' := ⟨⟨[], true, true⟩, tr⟩) rfl]
    exact ⟨_, _, rfl, fun h => absurd h hc, fun _ => rfl⟩

/-- **C87 fails** for a description that begins with a space: the blanks have been read before the description is looked at, so no text
is accepted, however many blanks it begins with. -/
theorem C87_leading_violated (d : List Char) {b l : List Char} (hb : Blank b) (hl : SolidHead l) (tr : List String) :
    eatDesc (' ' :: d) (good (b ++ l) tr) = .exc .notASpace (good l tr) :=
  C87_not_a_space hb hl (d := []) (.nil _) hl d tr

/-- Non-vacuity of `C87_accepts_partial`. -/
example : Reads (eatDesc "Move To".toList) "  move # 1\n TO[".toList () ['['] := by
  have hs : ∀ c : Char, gap c = false → c ≠ '#' → c ≠ '/' → Solid c := fun c a b d => ⟨a, b, d⟩
  refine C87_accepts_partial (b := "  ".toList) (l := "move # 1\n TO[".toList) (.space _ _ rfl (.space _ _ rfl .nil))
    ⟨'m', _, rfl, hs _ (by decide) (by decide) (by decide)⟩ ?_
  refine .letter 'M' 'm' (by decide) (by decide) (.letter 'o' 'o' (by decide) (by decide) (.letter 'v' 'v' (by decide) (by decide)
    (.letter 'e' 'e' (by decide) (by decide) ?_)))
  refine Follows.space (b := " # 1\n ".toList) (l := "TO[".toList) (.space _ _ rfl (.hash " 1".toList [' '] (by decide) (.space _ _ rfl .nil))) (by decide)
    ⟨'T', _, rfl, hs _ (by decide) (by decide) (by decide)⟩ ?_
  exact .letter 'T' 'T' (by decide) (by decide) (.letter 'o' 'O' (by decide) (by decide) (.nil _))

end KDL.TextIo
