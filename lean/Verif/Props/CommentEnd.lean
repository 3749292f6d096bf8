import Verif.Props.FramesIo

/-!
# C67 – comments that do not end
-/

namespace KDL.TextIo

theorem skipLine_none : ∀ (l : List Char) (n : ℤ), '\n' ∉ l → skipLine l n = none
  | [], _, _ => rfl
  | c :: l, n, h => by
    rw [skipLine, if_neg (fun e => h (by simp [e]))]
    exact skipLine_none l _ (fun h' => h (by simp [h']))

theorem skipComment_none : ∀ (l : List Char) (prev : Bool) (n : ℤ), ¬ ['*', '/'] <:+: l → (prev = true → l.head? ≠ some '/') →
    skipComment l prev n = none
  | [], _, _, _, _ => rfl
  | c :: l, prev, n, h, hp => by
    rw [skipComment, if_neg]
    · refine skipComment_none l _ _ (fun h' => h (List.infix_cons h')) fun hc hl => h ?_
      rcases l with _ | ⟨d, l⟩
      · simp at hl
      · simp only [List.head?_cons, Option.some.injEq, decide_eq_true_eq] at hl hc
        rw [hc, hl]
        exact ⟨[], l, rfl⟩
    · intro hc
      simp only [Bool.and_eq_true, decide_eq_true_eq] at hc
      exact hp hc.1 (by simp [hc.2])

/-- A comment that is not closed before the end of the stream: `Error_BasicIO_File` is thrown, the trace is kept and the stream is left
at its end, so that the next attempt to skip blanks throws the same error. -/
theorem C67_open_comment (b l : List Char) (hb : ∀ c ∈ b, gap c = true) (text : List Char)
    (ht : text = '#' :: l ∧ '\n' ∉ l ∨ text = '/' :: '/' :: l ∧ '\n' ∉ l ∨ text = '/' :: '*' :: l ∧ ¬ ['*', '/'] <:+: l) (tr : List String) :
    eatSpace ⟨⟨b ++ text, false, false⟩, tr⟩ = .exc .file ⟨⟨[], true, true⟩, tr⟩ ∧
    eatSpace ⟨⟨[], true, true⟩, tr⟩ = .exc .file ⟨⟨[], true, true⟩, tr⟩ := by
  have key : ∀ n, skipSpace text n = .throws := by
    intro n
    rcases ht with ⟨rfl, h⟩ | ⟨rfl, h⟩ | ⟨rfl, h⟩
    · rw [skipSpace.eq_def]
      simp only [if_true]
      split
      · rfl
      · next p hp => rw [skipLine_none l 0 h] at hp; cases hp
    · rw [skipSpace.eq_def]
      simp only [if_true, show ¬ ('/' = '#') by decide, if_false]
      split
      · rfl
      · next p hp => rw [skipLine_none l 0 h] at hp; cases hp
    · rw [skipSpace.eq_def]
      simp only [if_true, show ¬ ('/' = '#') by decide, show ¬ ('*' = '/') by decide, if_false]
      split
      · rfl
      · next p hp => rw [skipComment_none l false 0 h (by simp)] at hp; cases hp
  have key2 : ∀ (b : List Char), (∀ c ∈ b, gap c = true) → ∀ n, skipSpace (b ++ text) n = .throws := by
    intro b
    induction b with
    | nil => intro _ n; exact key n
    | cons c b ih =>
      intro hb n
      rw [List.cons_append, skipSpace_blankChar _ _ (hb c (by simp))]
      exact ih (fun d hd => hb d (by simp [hd])) _
  constructor
  · unfold eatSpace
    simp only [Bool.false_eq_true, if_false, key2 b hb]
  · unfold eatSpace
    simp

/-- All three kinds of comments can be open. -/
example : ('\n' ∉ " a comment".toList) ∧ ¬ ['*', '/'] <:+: " * /".toList ∧ ∀ c ∈ " \t".toList, gap c = true := by decide

end KDL.TextIo
