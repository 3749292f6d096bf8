import Verif.Model.RobotPrograms
import Verif.Props.Robots
import Verif.Props.Dynamics

/-! C92: the programs of the models directory: which line of the files is used, and that both ways of computing the torques
agree. -/

namespace KDL.RobotPrograms
open Finset

/-- The words of a file: lines of numbers, then `rest`. -/
def file (R : List (List ℝ)) (rest : List Tok) (trailing : Bool) : IStream :=
  ⟨R.flatten.map .num ++ rest, trailing, false, false⟩

/-! ## Reading -/

private theorem read_good (x old : ℝ) (ts : List Tok) (tr : Bool) :
    IStream.read ⟨.num x :: ts, tr, false, false⟩ old = (⟨ts, tr, ts.isEmpty && !tr, false⟩, x) := by
  simp [IStream.read]

private theorem read_fail (s : IStream) (old : ℝ) (h : s.fail = true) : s.read old = (s, old) := by
  cases s; simp only at h; subst h; simp [IStream.read]

private theorem readRow_fail (s : IStream) (q : List ℝ) (h : s.fail = true) : s.readRow q = (s, q) := by
  induction q with
  | nil => rfl
  | cons x xs ih => simp only [IStream.readRow, read_fail s x h, ih]

/-- A whole line. -/
private theorem readRow_good (row : List ℝ) : ∀ (q : List ℝ) (ts : List Tok) (tr : Bool), row.length = q.length → row ≠ [] →
    IStream.readRow ⟨row.map .num ++ ts, tr, false, false⟩ q = (⟨ts, tr, ts.isEmpty && !tr, false⟩, row) := by
  induction row with
  | nil => intro q ts tr h hn; exact absurd rfl hn
  | cons x xs ih =>
    intro q ts tr h _
    cases q with
    | nil => simp at h
    | cons y ys =>
      have hl : xs.length = ys.length := by simpa using h
      simp only [IStream.readRow, List.map_cons, List.cons_append, read_good]
      by_cases hx : xs = []
      · subst hx
        have : ys = [] := List.length_eq_zero_iff.1 hl.symm
        subst this
        simp [IStream.readRow]
      · have he : (List.map Tok.num xs ++ ts).isEmpty = false := by
          cases xs with
          | nil => exact absurd rfl hx
          | cons _ _ => rfl
        rw [he]
        simp only [Bool.false_and]
        rw [ih ys ts tr hl hx]

/-- The end of the input. -/
private theorem readRow_end (q : List ℝ) (tr : Bool) (hq : q ≠ []) :
    IStream.readRow ⟨[], tr, false, false⟩ q = (⟨[], tr, true, true⟩, q) := by
  cases q with
  | nil => exact absurd rfl hq
  | cons x xs =>
    have : IStream.read ⟨[], tr, false, false⟩ x = (⟨[], tr, true, true⟩, x) := by simp [IStream.read]
    simp only [IStream.readRow, this]
    rw [readRow_fail _ xs rfl]

/-- A word that is no number. -/
private theorem readRow_bad (q : List ℝ) (ts : List Tok) (tr : Bool) (x : ℝ) :
    IStream.readRow ⟨.bad :: ts, tr, false, false⟩ (x :: q) = (⟨.bad :: ts, tr, false, true⟩, 0 :: q) := by
  have : IStream.read ⟨.bad :: ts, tr, false, false⟩ x = (⟨.bad :: ts, tr, false, true⟩, 0) := by simp [IStream.read]
  simp only [IStream.readRow, this]
  rw [readRow_fail _ q rfl]

private theorem loop_eof (n : ℤ) (s : IStream) (q : List ℝ) (c : ℤ) (h : s.eof = true) : readLoop n s q c = some (q, []) := by
  rw [readLoop, if_pos h]

/-- A failed stream that is not at its end: the loop only counts. -/
private theorem loop_stuck (n : ℤ) (s : IStream) (q : List ℝ) (hf : s.fail = true) (he : s.eof = false) :
    ∀ (k : ℕ) (c : ℤ), (intMax - c).toNat = k →
      readLoop n s q c = if c < n ∧ n ≤ intMax then some (q, [q]) else none := by
  intro k
  induction k with
  | zero =>
    intro c hc
    rw [readLoop, if_neg (by simp [he]), if_pos (by omega), if_neg (by omega)]
  | succ k ih =>
    intro c hc
    rw [readLoop, if_neg (by simp [he]), if_neg (by omega), readRow_fail s q hf]
    dsimp only
    by_cases h : c + 1 = n
    · rw [if_pos h, if_pos (by omega)]
    · rw [if_neg h, ih (c + 1) (by omega)]
      by_cases h2 : c < n ∧ n ≤ intMax
      · rw [if_pos h2, if_pos (by omega)]
      · rw [if_neg h2, if_neg (by omega)]

/-- Reading on through whole lines. -/
private theorem loop_rows (n : ℤ) (rest : List Tok) (tr : Bool) :
    ∀ (R : List (List ℝ)) (q : List ℝ) (c : ℤ), q ≠ [] → (∀ r ∈ R, r.length = q.length) → c + R.length ≤ intMax →
      (R ≠ [] → rest = [] → tr = false → ∀ l, R.getLast? = some l → n < c + 1 ∨ c + R.length < n →
        readLoop n (file R rest tr) q c = some (l, [])) ∧
      ((R = [] ∨ rest ≠ [] ∨ tr = true) → n < c + 1 ∨ c + R.length < n →
        readLoop n (file R rest tr) q c = readLoop n ⟨rest, tr, false, false⟩ (R.getLast?.getD q) (c + R.length)) ∧
      (∀ i : ℕ, i < R.length → n = c + i + 1 →
        readLoop n (file R rest tr) q c = some (R.getD i [], [R.getD i []])) := by
  intro R
  induction R with
  | nil =>
    intro q c hq hR hc
    refine ⟨fun h => absurd rfl h, fun _ _ => ?_, fun i hi => absurd hi (by simp)⟩
    simp [file]
  | cons r R ih =>
    intro q c hq hR hc
    have hr : r.length = q.length := hR r List.mem_cons_self
    have hrn : r ≠ [] := by
      intro h; rw [h] at hr; exact hq (List.length_eq_zero_iff.1 hr.symm)
    have hR' : ∀ x ∈ R, x.length = r.length := fun x hx => (hR x (List.mem_cons_of_mem _ hx)).trans hr.symm
    have hlen : ((r :: R).length : ℤ) = R.length + 1 := by simp
    have hrow : (file (r :: R) rest tr).readRow q =
        (⟨R.flatten.map .num ++ rest, tr, (R.flatten.map Tok.num ++ rest).isEmpty && !tr, false⟩, r) := by
      have := readRow_good r q (R.flatten.map .num ++ rest) tr hr hrn
      simpa [file] using this
    have hstep : ∀ h : c + 1 ≠ n, readLoop n (file (r :: R) rest tr) q c =
        readLoop n ⟨R.flatten.map .num ++ rest, tr, (R.flatten.map Tok.num ++ rest).isEmpty && !tr, false⟩ r (c + 1) := by
      intro h
      rw [readLoop, if_neg (by simp [file]), if_neg (by omega), if_neg h, hrow]
    have hne : R ≠ [] → (R.flatten.map Tok.num ++ rest).isEmpty = false := by
      intro h
      cases R with
      | nil => exact absurd rfl h
      | cons a R =>
        have ha : a ≠ [] := by
          intro h0
          have := hR' a List.mem_cons_self
          rw [h0] at this
          exact hrn (List.length_eq_zero_iff.1 this.symm)
        cases a with
        | nil => exact absurd rfl ha
        | cons _ _ => rfl
    obtain ⟨i1, i2, i3⟩ := ih r (c + 1) hrn hR' (by omega)
    refine ⟨?_, ?_, ?_⟩
    · intro _ h1 h2 l hl hn
      rw [hstep (by omega)]
      by_cases hR0 : R = []
      · subst hR0; subst h1; subst h2
        rw [loop_eof _ _ _ _ (by simp)]
        simp at hl; rw [hl]
      · rw [hne hR0]
        simp only [Bool.false_and]
        have hl' : R.getLast? = some l := by
          rw [← hl]; cases R with
          | nil => exact absurd rfl hR0
          | cons a R => simp
        exact i1 hR0 h1 h2 l hl' (by omega)
    · intro h hn
      rw [hstep (by omega)]
      have hf : ((R.flatten.map Tok.num ++ rest).isEmpty && !tr) = false := by
        by_cases hR0 : R = []
        · subst hR0
          rcases h with h | h | h
          · simp at h
          · cases rest with
            | nil => exact absurd rfl h
            | cons _ _ => rfl
          · simp [h]
        · rw [hne hR0]; rfl
      rw [hf]
      have hr2 : R = [] ∨ rest ≠ [] ∨ tr = true := by
        rcases h with h | h | h
        · simp at h
        · exact Or.inr (Or.inl h)
        · exact Or.inr (Or.inr h)
      have := i2 hr2 (by omega)
      rw [show c + ((r :: R).length : ℤ) = c + 1 + R.length by omega]
      refine this.trans ?_
      cases R with
      | nil => rfl
      | cons a R =>
        obtain ⟨l, hl⟩ : ∃ l, (a :: R).getLast? = some l := ⟨_, List.getLast?_eq_some_getLast (by simp)⟩
        rw [List.getLast?_cons_cons, hl]; rfl
    · intro i hi hn
      cases i with
      | zero =>
        rw [readLoop, if_neg (by simp [file]), if_neg (by omega), if_pos (by omega), hrow]
        simp
      | succ i =>
        have hi' : i < R.length := by simpa using hi
        rw [hstep (by omega)]
        rw [hne (by intro h; rw [h] at hi'; simp at hi')]
        simp only [Bool.false_and]
        have := i3 i hi' (by omega)
        simpa [file] using this

/-- **C92, which line**: in a file whose first lines are complete, line number `n` is the `n`-th line, whatever follows
these lines and whether or not the file ends with a line break. -/
theorem C92_line_partial (R : List (List ℝ)) (rest : List Tok) (tr : Bool) (q : List ℝ) (hq : q ≠ [])
    (hR : ∀ r ∈ R, r.length = q.length) (n : ℕ) (h1 : 1 ≤ n) (h2 : n ≤ R.length) (h3 : (R.length : ℤ) ≤ 2147483647) :
    readLoop n (file R rest tr) q 0 = some (R.getD (n - 1) [], [R.getD (n - 1) []]) :=
  (loop_rows n rest tr R q 0 hq hR (by have : intMax = 2147483647 := by norm_num [intMax]
                                       omega)).2.2 (n - 1) (by omega) (by omega)

/-- A line number that the file does not have is not noticed: the program goes on with the last line.  It is printed only
if the number is one too large and the file ends with a line break (or is empty). -/
theorem C92_no_line_violated (R : List (List ℝ)) (tr : Bool) (q : List ℝ) (hq : q ≠ [])
    (hR : ∀ r ∈ R, r.length = q.length) (n : ℤ) (hn : n < 1 ∨ (R.length : ℤ) < n) (h3 : (R.length : ℤ) < intMax) :
    readLoop n (file R [] tr) q 0 = some (R.getLast?.getD q,
      if n = R.length + 1 ∧ (tr = true ∨ R = []) then [R.getLast?.getD q] else []) := by
  obtain ⟨i1, i2, _⟩ := loop_rows n [] tr R q 0 hq hR (by omega)
  by_cases h : R = [] ∨ tr = true
  · rw [i2 (h.elim Or.inl (fun h => Or.inr (Or.inr h))) (by omega), zero_add]
    have hl : R.getLast?.getD q ≠ [] := by
      intro h0
      cases hg : R.getLast? with
      | none => rw [hg] at h0; exact hq h0
      | some l =>
        rw [hg] at h0
        have := hR l (List.mem_of_getLast? hg)
        simp only [Option.getD_some] at h0
        rw [h0] at this
        exact hq (List.length_eq_zero_iff.1 this.symm)
    rw [readLoop, if_neg (by simp), if_neg (by omega), readRow_end _ _ hl]
    by_cases h' : (R.length : ℤ) + 1 = n
    · rw [if_pos h', if_pos ⟨h'.symm, h.symm⟩]
    · rw [if_neg h', if_neg (fun h2 => h' h2.1.symm), loop_eof _ _ _ _ rfl]
  · obtain ⟨hR0, htr⟩ := not_or.1 h
    have htr : tr = false := by simpa using htr
    cases hg : R.getLast? with
    | none => exact absurd (List.getLast?_eq_none_iff.1 hg) hR0
    | some l =>
      rw [i1 hR0 rfl htr l hg (by omega), if_neg (fun h2 => h (h2.2.symm))]
      rfl

/-- A word that is no number is not noticed either.  Lines before it can still be selected; a later line number takes the
last complete line with its first entry replaced by zero, and a number below one makes the counter overflow. -/
theorem C92_bad_violated (R : List (List ℝ)) (ts : List Tok) (tr : Bool) (x : ℝ) (q : List ℝ)
    (hR : ∀ r ∈ R, r.length = q.length + 1) (n : ℤ) (hn : n < 1 ∨ (R.length : ℤ) < n) (h3 : (R.length : ℤ) < intMax)
    (hm : n ≤ intMax) :
    readLoop n (file R (.bad :: ts) tr) (x :: q) 0 =
      if n < 1 then none else some (0 :: (R.getLast?.getD (x :: q)).tail, [0 :: (R.getLast?.getD (x :: q)).tail]) := by
  obtain ⟨_, i2, _⟩ := loop_rows n (.bad :: ts) tr R (x :: q) 0 (by simp) (by simpa using hR) (by omega)
  rw [i2 (by simp) (by omega), zero_add]
  have hl : ∃ y ys, R.getLast?.getD (x :: q) = y :: ys := by
    cases hg : R.getLast? with
    | none => exact ⟨x, q, rfl⟩
    | some l =>
      have := hR l (List.mem_of_getLast? hg)
      cases l with
      | nil => simp at this
      | cons y ys => exact ⟨y, ys, rfl⟩
  obtain ⟨y, ys, hy⟩ := hl
  rw [hy, readLoop, if_neg (by simp), if_neg (by omega), readRow_bad]
  dsimp only [List.tail_cons]
  by_cases h' : (R.length : ℤ) + 1 = n
  · rw [if_pos h', if_neg (by omega)]
  · rw [if_neg h', loop_stuck n _ _ rfl rfl _ _ rfl]
    rcases hn with h | h
    · rw [if_neg (by omega), if_pos h]
    · rw [if_pos (by omega), if_neg (by omega)]

/-! ## The torques -/

private theorem twist_dot_zero (t : Twist) : t.dot (0 : Wrench) = 0 := by
  simp [Twist.dot, Vec.dot]

/-- **C92, two ways to the torques**: for every chain and every motion, the torques of the recursive Newton-Euler solver
equal the inertia matrix times the accelerations plus the Coriolis and gravity torques, entry by entry, and none of the calls
fails. -/
theorem C92_torques (c : Chain) (hc : c.WF) (hv : c.Valid) (hI : c.SymmI) (q qd qdd : List ℝ)
    (hq : q.length = c.nrOfJoints) (hqd : qd.length = c.nrOfJoints) (hqdd : qdd.length = c.nrOfJoints) (F : Frame)
    (hF : fkPos c q (-1) = some (E_NOERROR, F)) :
    ∃ t : Torques, torques c q qd qdd = some t ∧ t.pose = F ∧ t.tauHCG = t.tau ∧ t.tau.length = c.nrOfJoints ∧
      idRne c c.nrOfJoints c.nrOfSegments ⟨0, 0, -9.81⟩ q qd qdd (List.replicate c.nrOfSegments 0)
        (List.replicate c.nrOfJoints 0) = some (E_NOERROR, t.tau) := by
  obtain ⟨τ, H, C, G, e1, e2, e3, e4, l1, l2, l3, l4, hk⟩ := C39_decomposition c hc hv hI grav q qd qdd
    (List.replicate c.nrOfSegments 0) (List.replicate c.nrOfJoints 0) (List.replicate c.nrOfJoints 0)
    (List.replicate c.nrOfJoints 0) (.zero c.nrOfJoints) hq hqd hqdd (by simp) (by simp) (by simp) (by simp) rfl
  have lm : (EstState.mulVec H qdd).length = c.nrOfJoints := by simp [EstState.mulVec, l4]
  have eH : multiplyH H qdd = some (EstState.mulVec H qdd) := by rw [multiplyH, if_pos (by rw [l4, hqdd])]
  have eA : jntAdd (EstState.mulVec H qdd) C = some (List.zipWith (· + ·) (EstState.mulVec H qdd) C) := by
    rw [jntAdd, if_pos (by rw [lm, l2])]
  have eB : jntAdd (List.zipWith (· + ·) (EstState.mulVec H qdd) C) G =
      some (List.zipWith (· + ·) (List.zipWith (· + ·) (EstState.mulVec H qdd) C) G) := by
    rw [jntAdd, if_pos (by simp [lm, l2, l3])]
  refine ⟨⟨F, τ, H, C, G, List.zipWith (· + ·) (List.zipWith (· + ·) (EstState.mulVec H qdd) C) G⟩, ?_, rfl, ?_, l1, e1⟩
  · simp only [torques, hF, e1, e2, e3, e4, eH, eA, eB, Option.bind_eq_bind, Option.bind_some, Option.pure_def]
  · show List.zipWith (· + ·) (List.zipWith (· + ·) (EstState.mulVec H qdd) C) G = τ
    apply List.ext_getElem
    · simp [lm, l1, l2, l3]
    · intro k h1 h2
      have hk' := hk k (by rw [← l1]; exact h2)
      rw [Finset.sum_eq_zero (s := range c.nrOfSegments) (fun i _ => by
        rw [show (List.replicate c.nrOfSegments (0 : Wrench)).getD i 0 = 0 by
          simp [List.getD_eq_getElem?_getD, List.getElem?_replicate]; split_ifs <;> rfl]
        exact twist_dot_zero _), sub_zero] at hk'
      have g1 : τ.getD k 0 = τ[k] := by simp [List.getD_eq_getElem?_getD, h2]
      have hkn : k < c.nrOfJoints := by rw [← l1]; exact h2
      have g2 : C.getD k 0 = C[k]'(by omega) := by simp [List.getD_eq_getElem?_getD, l2, hkn]
      have g3 : G.getD k 0 = G[k]'(by omega) := by simp [List.getD_eq_getElem?_getD, l3, hkn]
      rw [g1, g2, g3] at hk'
      rw [hk', List.getElem_zipWith, List.getElem_zipWith]
      simp [EstState.mulVec, l4]

/-! ## The program for the KUKA arm -/

private theorem kuka_fk_some (q : List ℝ) (hq : q.length = 7) : ∃ F, fkPos kukaLWR q (-1) = some (E_NOERROR, F) := by
  match q, hq with
  | [q1, q2, q3, q4, q5, q6, q7], _ => exact ⟨_, C76_kuka_fk q1 q2 q3 q4 q5 q6 q7⟩

/-- **C92, the program**: if the three files can be read and each has complete lines up to number `n`, the program uses line
`n` of each, prints these lines, and computes and stores the pose and the torques of that state under the number `n`; the
torques computed in the second way are the same. -/
theorem C92_program_partial (n : ℕ) (h1 : 1 ≤ n) (Q V A : List (List ℝ)) (rq rv ra : List Tok) (tq tv ta : Bool)
    (hQ : ∀ r ∈ Q, r.length = 7) (hV : ∀ r ∈ V, r.length = 7) (hA : ∀ r ∈ A, r.length = 7)
    (nQ : n ≤ Q.length) (nV : n ≤ V.length) (nA : n ≤ A.length)
    (mQ : (Q.length : ℤ) ≤ 2147483647) (mV : (V.length : ℤ) ≤ 2147483647) (mA : (A.length : ℤ) ≤ 2147483647) :
    ∃ (r : Result) (F : Frame), kukaMain (.num n) ⟨some (file Q rq tq), some (file V rv tv), some (file A ra ta)⟩ true true =
        some (.ok r) ∧
      r.printed = [Q.getD (n - 1) [], V.getD (n - 1) [], A.getD (n - 1) []] ∧
      fkPos kukaLWR (Q.getD (n - 1) []) (-1) = some (E_NOERROR, F) ∧ r.torques.pose = F ∧ r.poseFile = ((n : ℤ), F) ∧
      idRne kukaLWR 7 8 ⟨0, 0, -9.81⟩ (Q.getD (n - 1) []) (V.getD (n - 1) []) (A.getD (n - 1) []) (List.replicate 8 0)
        (List.replicate 7 0) = some (E_NOERROR, r.torques.tau) ∧
      r.tauFile = ((n : ℤ), r.torques.tau) ∧ r.torques.tauHCG = r.torques.tau := by
  have row : ∀ R : List (List ℝ), (∀ r ∈ R, r.length = 7) → n ≤ R.length → (R.getD (n - 1) []).length = 7 := by
    intro R hR hn
    apply hR
    rw [List.getD_eq_getElem?_getD, List.getElem?_eq_getElem (by omega), Option.getD_some]
    exact List.getElem_mem _
  obtain ⟨k1, k2, k3, k4, k5⟩ := C76_kuka_shape
  obtain ⟨F, hF⟩ := kuka_fk_some _ (row Q hQ nQ)
  obtain ⟨t, ht, hp, hh, -, hτ⟩ := C92_torques kukaLWR k3 k4 k5 _ _ _ (row Q hQ nQ) (row V hV nV) (row A hA nA) F hF
  have e : ∀ (R : List (List ℝ)) (rest : List Tok) (tr : Bool), (∀ r ∈ R, r.length = 7) → n ≤ R.length →
      (R.length : ℤ) ≤ 2147483647 →
      readFile n (some (file R rest tr)) (List.replicate kukaLWR.nrOfJoints 0) =
        some (.ok (R.getD (n - 1) [], [R.getD (n - 1) []])) := by
    intro R rest tr hR hn hm
    rw [readFile, C92_line_partial R rest tr _ (by rw [k1]; simp) (by rw [k1]; simpa using hR) n h1 hn hm]
    rfl
  have hi : getInputs (.num n) ⟨some (file Q rq tq), some (file V rv tv), some (file A ra ta)⟩
      (List.replicate kukaLWR.nrOfJoints 0) (List.replicate kukaLWR.nrOfJoints 0) (List.replicate kukaLWR.nrOfJoints 0) =
      some (.ok ⟨Q.getD (n - 1) [], V.getD (n - 1) [], A.getD (n - 1) [], n,
        [Q.getD (n - 1) [], V.getD (n - 1) [], A.getD (n - 1) []]⟩) := by
    simp only [getInputs, Answer.value, e Q rq tq hQ nQ mQ, e V rv tv hV nV mV, e A ra ta hA nA mA]
    rfl
  refine ⟨⟨t, [Q.getD (n - 1) [], V.getD (n - 1) [], A.getD (n - 1) []], (n, t.pose), (n, t.tau)⟩, F, ?_, rfl, hF, hp,
    by rw [hp], ?_, rfl, hh⟩
  · simp only [kukaMain, hi, ht]; rfl
  · exact hτ

/-- A file that cannot be opened ends the program, if the loops before it end; so does an output file. -/
theorem C92_files (a : Answer) (f : Files) (n : ℤ) (hn : a.value = some n) (cp ct : Bool) (x y : List ℝ × List (List ℝ)) :
    (f.q = none → kukaMain a f cp ct = some (.error 1)) ∧
    (readFile n f.q (List.replicate 7 0) = some (.ok x) → f.qdot = none → kukaMain a f cp ct = some (.error 1)) ∧
    (readFile n f.q (List.replicate 7 0) = some (.ok x) → readFile n f.qdot (List.replicate 7 0) = some (.ok y) →
      f.qdotdot = none → kukaMain a f cp ct = some (.error 1)) ∧
    (∀ r : Result, kukaMain a f true true = some (.ok r) → cp = false ∨ ct = false →
      kukaMain a f cp ct = some (.error 1)) := by
  have k1 : kukaLWR.nrOfJoints = 7 := C76_kuka_shape.1
  have rf : readFile n none (List.replicate 7 0) = some (.error 1) := rfl
  refine ⟨fun h => ?_, fun hx h => ?_, fun hx hy h => ?_, fun r h hc => ?_⟩
  · simp only [kukaMain, getInputs, h]
  · cases hq : f.q with
    | none => simp only [kukaMain, getInputs, hq]
    | some s => rw [hq] at hx; simp only [kukaMain, getInputs, hn, k1, hq, hx, h, rf]
  · cases hq : f.q with
    | none => simp only [kukaMain, getInputs, hq]
    | some s => rw [hq] at hx; simp only [kukaMain, getInputs, hn, k1, hq, hx, hy, h, rf]
  · unfold kukaMain at h ⊢
    dsimp only at h ⊢
    split at h
    · simp at h
    · simp at h
    · split at h
      · simp at h
      · rename_i t ht
        rcases hc with rfl | rfl
        · rfl
        · cases cp <;> rfl

/-- Without an answer to the question for the line number the program compares a variable that has no value. -/
theorem C92_no_answer_violated (f : Files) (h : f.q ≠ none) (cp ct : Bool) : kukaMain .nothing f cp ct = none := by
  cases hq : f.q with
  | none => exact absurd hq h
  | some s => simp only [kukaMain, getInputs, hq, Answer.value]

/-- Witness of the violation for the whole program: asked for experiment 5 with files of one line each, it stores the torques
of the first line under the number 5. -/
theorem C92_wrong_number_violated (l : List ℝ) (hl : l.length = 7) :
    ∃ r : Result, kukaMain (.num 5) ⟨some (file [l] [] true), some (file [l] [] true), some (file [l] [] true)⟩ true true =
        some (.ok r) ∧ r.printed = [] ∧ r.tauFile.1 = 5 ∧
      idRne kukaLWR 7 8 ⟨0, 0, -9.81⟩ l l l (List.replicate 8 0) (List.replicate 7 0) = some (E_NOERROR, r.tauFile.2) := by
  obtain ⟨k1, k2, k3, k4, k5⟩ := C76_kuka_shape
  obtain ⟨F, hF⟩ := kuka_fk_some l hl
  obtain ⟨t, ht, hp, hh, -, hτ⟩ := C92_torques kukaLWR k3 k4 k5 l l l hl hl hl F hF
  have e : readFile 5 (some (file [l] [] true)) (List.replicate kukaLWR.nrOfJoints 0) = some (.ok (l, [])) := by
    rw [readFile, C92_no_line_violated [l] true _ (by rw [k1]; simp) (by rw [k1]; simpa using hl) 5 (Or.inr (by simp))
      (by norm_num [intMax])]
    simp
  refine ⟨⟨t, [], (5, t.pose), (5, t.tau)⟩, ?_, rfl, rfl, hτ⟩
  simp only [kukaMain, getInputs, Answer.value, e]
  simp [ht]

/-! ## The program for the Puma arm -/

/-- The numbers at the beginning of the input. -/
def numbers : List Tok → List ℝ
  | .num x :: ts => x :: numbers ts
  | _ => []

private def Next (s : IStream) (g : List ℝ) : Prop :=
  (s.eof = false ∧ s.fail = false ∧ numbers s.toks = g) ∨ ((s.eof = true ∨ s.fail = true) ∧ g = [])

private theorem next_read (s : IStream) (g : List ℝ) (h : Next s g) : (s.read 0).2 = g.getD 0 0 ∧ Next (s.read 0).1 (g.drop 1) := by
  rcases h with ⟨h1, h2, h3⟩ | ⟨h1, h2⟩
  · rcases s with ⟨toks, tr, eof, fail⟩
    simp only at h1 h2 h3
    subst h1; subst h2
    match toks, h3 with
    | [], h3 =>
      subst h3
      exact ⟨by simp [IStream.read, numbers], Or.inr ⟨by simp [IStream.read], by simp [numbers]⟩⟩
    | .bad :: ts, h3 =>
      subst h3
      exact ⟨by simp [IStream.read, numbers], Or.inr ⟨by simp [IStream.read], by simp [numbers]⟩⟩
    | .num x :: ts, h3 =>
      subst h3
      rw [read_good]
      refine ⟨by simp [numbers], ?_⟩
      by_cases he : ts.isEmpty && !tr
      · refine Or.inr ⟨Or.inl he, ?_⟩
        have : ts = [] := by simp at he; exact he.1
        subst this; simp [numbers]
      · exact Or.inl ⟨by simpa using he, rfl, by simp [numbers]⟩
  · subst h2
    have : s.read 0 = ({ s with fail := true }, 0) := by simp [IStream.read, h1]
    rw [this]
    exact ⟨by simp, Or.inr ⟨Or.inr rfl, by simp⟩⟩

private theorem ask_next (n : ℕ) : ∀ (s : IStream) (g : List ℝ), Next s g →
    (ask s n).2.1 = (List.range n).map (fun i => g.getD (3 * i) 0) ∧
    (ask s n).2.2.1 = (List.range n).map (fun i => g.getD (3 * i + 1) 0) ∧
    (ask s n).2.2.2 = (List.range n).map (fun i => g.getD (3 * i + 2) 0) := by
  induction n with
  | zero => intro s g _; exact ⟨rfl, rfl, rfl⟩
  | succ n ih =>
    intro s g h
    obtain ⟨a1, a2⟩ := next_read s g h
    obtain ⟨b1, b2⟩ := next_read _ _ a2
    obtain ⟨c1, c2⟩ := next_read _ _ b2
    obtain ⟨i1, i2, i3⟩ := ih _ _ c2
    have hd : ∀ i, ((g.drop 1).drop 1).drop 1 = g.drop 3 ∧ (g.drop 3).getD i 0 = g.getD (i + 3) 0 := by
      intro i; simp [List.getD_eq_getElem?_getD, add_comm]
    rw [List.range_succ_eq_map]
    simp only [ask, List.map_cons, List.map_map]
    refine ⟨?_, ?_, ?_⟩
    · rw [a1, i1]; congr 1
      apply List.map_congr_left; intro i _
      rw [(hd 0).1, (hd _).2]; simp [Nat.mul_add]
    · rw [b1, i2]; congr 1
      · simp [List.getD_eq_getElem?_getD]
      · apply List.map_congr_left; intro i _
        rw [(hd 0).1, (hd _).2]; simp [Nat.mul_add, Nat.add_right_comm]
    · rw [c1, i3]; congr 1
      · simp [List.getD_eq_getElem?_getD]
      · apply List.map_congr_left; intro i _
        rw [(hd 0).1, (hd _).2]; simp [Nat.mul_add, Nat.add_right_comm]

/-- **C92, joint values typed in**: the numbers are taken in the order position, velocity, acceleration of the first joint,
then of the second, and so on; from the end of the input or the first word that is no number on, every value is zero. -/
theorem C92_ask (ts : List Tok) (tr : Bool) (n : ℕ) :
    (ask ⟨ts, tr, false, false⟩ n).2.1 = (List.range n).map (fun i => (numbers ts).getD (3 * i) 0) ∧
    (ask ⟨ts, tr, false, false⟩ n).2.2.1 = (List.range n).map (fun i => (numbers ts).getD (3 * i + 1) 0) ∧
    (ask ⟨ts, tr, false, false⟩ n).2.2.2 = (List.range n).map (fun i => (numbers ts).getD (3 * i + 2) 0) :=
  ask_next n _ _ (Or.inl ⟨rfl, rfl, rfl⟩)

/-- **C92, the program for the Puma arm**: for every input it ends and prints the pose and the torques of the state typed
in. -/
theorem C92_puma (ts : List Tok) (tr : Bool) (q qd qdd : List ℝ)
    (hq : q = (List.range 6).map (fun i => (numbers ts).getD (3 * i) 0))
    (hqd : qd = (List.range 6).map (fun i => (numbers ts).getD (3 * i + 1) 0))
    (hqdd : qdd = (List.range 6).map (fun i => (numbers ts).getD (3 * i + 2) 0)) :
    ∃ (F : Frame) (τ : List ℝ), pumaMain ⟨ts, tr, false, false⟩ = some (F, τ) ∧
      fkPos puma560 q (-1) = some (E_NOERROR, F) ∧
      idRne puma560 6 11 ⟨0, 0, -9.81⟩ q qd qdd (List.replicate 11 0) (List.replicate 6 0) = some (E_NOERROR, τ) := by
  obtain ⟨k1, k2, k3, k4, k5⟩ := C76_puma_shape
  obtain ⟨a1, a2, a3⟩ := C92_ask ts tr 6
  have l1 : q.length = 6 := by rw [hq]; simp
  have l2 : qd.length = 6 := by rw [hqd]; simp
  have l3 : qdd.length = 6 := by rw [hqdd]; simp
  obtain ⟨F, hF⟩ : ∃ F, fkPos puma560 q (-1) = some (E_NOERROR, F) := by
    match q, l1 with
    | [q1, q2, q3, q4, q5, q6], _ => exact ⟨_, C76_puma_fk q1 q2 q3 q4 q5 q6⟩
  obtain ⟨t, ht, hp, hh, -, hτ⟩ := C92_torques puma560 k3 k4 k5 q qd qdd l1 l2 l3 F hF
  refine ⟨F, t.tau, ?_, hF, hτ⟩
  rw [← hq] at a1; rw [← hqd] at a2; rw [← hqdd] at a3
  have hτ' : idRne puma560 6 11 grav q qd qdd (List.replicate 11 0) (List.replicate 6 0) = some (E_NOERROR, t.tau) := hτ
  simp only [pumaMain, k1, k2, a1, a2, a3, hF, hτ', Option.bind_eq_bind, Option.bind_some, Option.pure_def]

/-- An answer that is no number is taken for line 0, which no file has: the program goes on with the last line of each file and
prints none of them. -/
theorem C92_answer_violated (Q V A : List (List ℝ)) (tq tv ta : Bool) (q v a : List ℝ) (hq : q ≠ []) (hv : v ≠ []) (ha : a ≠ [])
    (hQ : ∀ r ∈ Q, r.length = q.length) (hV : ∀ r ∈ V, r.length = v.length) (hA : ∀ r ∈ A, r.length = a.length)
    (mQ : (Q.length : ℤ) < intMax) (mV : (V.length : ℤ) < intMax) (mA : (A.length : ℤ) < intMax) :
    getInputs .bad ⟨some (file Q [] tq), some (file V [] tv), some (file A [] ta)⟩ q v a =
      some (.ok ⟨Q.getLast?.getD q, V.getLast?.getD v, A.getLast?.getD a, 0, []⟩) := by
  have e : ∀ (R : List (List ℝ)) (tr : Bool) (x : List ℝ), x ≠ [] → (∀ r ∈ R, r.length = x.length) → (R.length : ℤ) < intMax →
      readFile 0 (some (file R [] tr)) x = some (.ok (R.getLast?.getD x, [])) := by
    intro R tr x hx hR hm
    rw [readFile, C92_no_line_violated R tr x hx hR 0 (Or.inl (by norm_num)) hm, if_neg (by omega)]
    rfl
  simp only [getInputs, Answer.value, e Q tq q hq hQ mQ, e V tv v hv hV mV, e A ta a ha hA mA]
  rfl

/-! ## Non-vacuity -/

-- two lines of a file without a final line break; line 2 is the second one, line 3 and line 0 are the second one as well
example : readLoop 2 (file [[1, 2], [3, 4]] [] false) [0, 0] 0 = some ([3, 4], [[3, 4]]) :=
  C92_line_partial [[1, 2], [3, 4]] [] false [0, 0] (by simp) (by simp) 2 (by norm_num) (by simp) (by norm_num [intMax])
example : readLoop 3 (file [[1, 2], [3, 4]] [] false) [0, 0] 0 = some ([3, 4], []) :=
  (C92_no_line_violated [[1, 2], [3, 4]] false [0, 0] (by simp) (by simp) 3 (by simp) (by norm_num [intMax])).trans
    (by simp)
example : getInputs .bad ⟨some (file [[1], [2]] [] true), some (file [[3]] [] true), some (file [] [] true)⟩ [0] [0] [0] =
    some (.ok ⟨[2], [3], [0], 0, []⟩) :=
  (C92_answer_violated [[1], [2]] [[3]] [] true true true [0] [0] [0] (by simp) (by simp) (by simp) (by simp) (by simp) (by simp)
    (by norm_num [intMax]) (by norm_num [intMax]) (by norm_num [intMax])).trans (by simp)
-- a word that is no number, and line number zero: the counter overflows
example : readLoop 0 (file [[1, 2]] [.bad] true) [0, 0] 0 = none :=
  (C92_bad_violated [[1, 2]] [] true 0 [0] (by simp) 0 (by simp) (by norm_num [intMax]) (by norm_num [intMax])).trans
    (by simp)
example : (ask ⟨[.num 1, .num 2, .bad, .num 3], true, false, false⟩ 2).2.1 = [1, 0] := by
  rw [(C92_ask _ _ _).1]; simp [numbers, List.range_succ]

end KDL.RobotPrograms
