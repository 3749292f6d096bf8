import Verif.Model.TreeDynamics
import Verif.Lemmas.NewtonEuler
import Verif.Lemmas.TreeKin

/-! Helper lemmas for the tree inverse dynamics. -/

noncomputable section
namespace KDL
namespace Tree

/-- Transform of the segment `n` at `q`. -/
def xE (t : Tree) (q : ℕ → ℝ) (n : String) : Frame :=
  match t.find n with
  | some e => Xs q e.segment e.q_nr
  | none => 1
/-- Unit twist of the segment `n`. -/
def sE (t : Tree) (q : ℕ → ℝ) (n : String) : Twist :=
  match t.find n with
  | some e => Ss q e.segment e.q_nr
  | none => 0
/-- Net wrench of the segment `n`. -/
def flE (t : Tree) (V A : String → Twist) (fext : String → Option Wrench) (n : String) : Wrench :=
  match t.find n with
  | some e => fl e.segment (V n) (A n) ((fext n).getD 0)
  | none => 0

/-- Wrench carried by the segment `n` together with everything below it. -/
def subF (t : Tree) (q : ℕ → ℝ) (FL : String → Wrench) : ℕ → String → Wrench
  | 0, _ => 0
  | fuel + 1, n => FL n + ((childrenOf t n).map fun c => xE t q c * subF t q FL fuel c).sum

theorem subF_stable {t : Tree} (ht : t.WF) (q : ℕ → ℝ) (FL : String → Wrench) : ∀ (fuel k : ℕ) (n : String),
    Above t k [n] → t.segments.length ≤ fuel + k → subF t q FL (fuel + 1) n = subF t q FL fuel n := by
  intro fuel
  induction fuel with
  | zero =>
    intro k n hA hk
    have := hA.lt (c := n) (by simp)
    omega
  | succ fuel ih =>
    intro k n hA hk
    rw [subF, subF]
    congr 2
    refine List.map_congr_left fun c hc => ?_
    have hA' := hA.children ht (c := n) (by simp)
    rw [ih (k + 1) c (fun x hx => hA' x (by simp at hx; exact hx ▸ hc)) (by omega)]

theorem exists_subF {t : Tree} (ht : t.WF) (q : ℕ → ℝ) (FL : String → Wrench) :
    ∃ F : String → Wrench, ∀ n e, t.find n = some e → F n = FL n + (e.children.map fun c => xE t q c * F c).sum := by
  refine ⟨subF t q FL t.segments.length, fun n e he => ?_⟩
  obtain ⟨h1, h2⟩ := find_some he
  obtain ⟨i, hi, hie⟩ := List.getElem_of_mem h1
  have hget : t.segments[i]? = some e := by rw [List.getElem?_eq_getElem hi, hie]
  rw [← subF_stable ht q FL _ 0 n (fun c hc => by simp at hc; exact ⟨i, e, hget, by rw [hc]; exact h2, by omega⟩) (by omega),
    subF]
  have : childrenOf t n = e.children := by simp [childrenOf, he]
  rw [this]

theorem childrenOf_eq {t : Tree} {n : String} {e : TreeElem} (h : t.find n = some e) : childrenOf t n = e.children := by
  simp [childrenOf, h]

/-- A child is a segment whose parent is the element; it is not the root. -/
theorem child_find {t : Tree} (ht : t.WF) {e : TreeElem} (he : e ∈ t.segments) {c : String} (hc : c ∈ e.children) :
    ∃ x, t.find c = some x ∧ x.parent = some e.name ∧ c ≠ t.root_name := by
  rw [ht.children e he] at hc
  simp only [List.mem_map, List.mem_filter, decide_eq_true_eq] at hc
  obtain ⟨x, ⟨hx, hp⟩, rfl⟩ := hc
  refine ⟨x, find_of_mem ht.nodup hx, hp, ?_⟩
  intro hr
  obtain ⟨r, h1, h2, h3, _⟩ := ht.root
  have hname : r.name = t.root_name := by show r.segment.name = _; rw [h2]; rfl
  have : t.find t.root_name = some r := by rw [← hname]; exact find_of_get ht.nodup h1
  rw [← hr, find_of_mem ht.nodup hx] at this
  cases this
  rw [h3] at hp; cases hp

/-- Principle of virtual work, one list of children at a time. -/
theorem tree_virtual {t : Tree} (ht : t.WF) (hv : ∀ x ∈ t.segments, x.segment.Valid) (q δ : ℕ → ℝ)
    (U : String → Twist) (FL F : String → Wrench)
    (hU : ∀ n e p, t.find n = some e → n ≠ t.root_name → e.parent = some p → U n = up q δ e.segment e.q_nr (U p))
    (hF : ∀ n e, t.find n = some e → F n = FL n + (e.children.map fun c => xE t q c * F c).sum)
    (D : String → ℝ) (hD : ∀ n e, t.find n = some e → D n = qv e.segment δ e.q_nr) :
    ∀ (fuel k : ℕ) (n : String) (e : TreeElem) (cs : List String), t.find n = some e → (∀ c ∈ cs, c ∈ e.children) →
      Above t k cs → t.segments.length ≤ fuel + k →
      (U n).dot (cs.map fun c => xE t q c * F c).sum + ((dfs t fuel cs).map fun m => D m * (sE t q m).dot (F m)).sum =
      ((dfs t fuel cs).map fun m => (U m).dot (FL m)).sum := by
  intro fuel
  induction fuel with
  | zero =>
    intro k n e cs _ _ hA hk
    have : cs = [] := by
      by_contra hne
      obtain ⟨c, hc⟩ := List.exists_mem_of_ne_nil cs hne
      have := hA.lt hc
      omega
    subst this
    simp [dfs, Twist.dot_zero]
  | succ fuel ih =>
    intro k n e cs he hcs hA hk
    induction cs with
    | nil => simp [dfs, Twist.dot_zero]
    | cons c cs ihc =>
      have h1 := ihc (fun x hx => hcs x (by simp [hx])) (fun x hx => hA x (by simp [hx]))
      obtain ⟨x, hx, hp, hr⟩ := child_find ht (find_some he).1 (hcs c (by simp))
      rw [(find_some he).2] at hp
      have hxv := hv x (find_some hx).1
      have h2 := ih (k + 1) c x x.children hx (fun _ h => h)
        (by have := hA.children ht (c := c) (by simp); rwa [childrenOf_eq hx] at this) (by omega)
      have hUc := hU c x n hx hr hp
      have hFc := hF c x hx
      have hd : dfs t (fuel + 1) (c :: cs) = (c :: dfs t fuel x.children) ++ dfs t (fuel + 1) cs := by
        simp [dfs, childrenOf_eq hx]
      rw [hd]
      simp only [List.map_append, List.map_cons, List.sum_append, List.sum_cons]
      rw [← h1, ← h2, Twist.dot_add]
      have e1 : (U n).dot (xE t q c * F c) = (U c).dot (F c) - D c * (sE t q c).dot (F c) := by
        have hxe : xE t q c = Xs q x.segment x.q_nr := by simp [xE, hx]
        have hse : sE t q c = Ss q x.segment x.q_nr := by simp [sE, hx]
        rw [hUc, hxe, hse, hD c x hx, ← Frame.dot_invTwist _ (isProper_Xs q hxv _), up, Twist.add_dot, Twist.smul_dot]
        ring
      have e2 : (U c).dot (F c) = (U c).dot (FL c) + (U c).dot (x.children.map fun c => xE t q c * F c).sum := by
        conv_lhs => rw [hFc, Twist.dot_add]
      rw [e1, e2]
      ring

/-! ### The recursion of the solver -/

theorem auxSet_self (m : String → Option TreeAux) (n : String) (x : TreeAux) : auxSet m n x n = some x := by simp [auxSet]
theorem auxSet_ne (m : String → Option TreeAux) {n k : String} (x : TreeAux) (h : k ≠ n) : auxSet m n x k = m k := by
  simp [auxSet, h]

/-- Torque of a moving element. -/
def tauE (q qdd : ℕ → ℝ) (F : String → Wrench) (e : TreeElem) : ℝ :=
  (Ss q e.segment e.q_nr).dot (F e.name) + e.segment.joint.inertia * qdd e.q_nr

/-- `k` was inserted before position `i`. -/
def Before (t : Tree) (k : String) (i : ℕ) : Prop := ∃ j e, t.segments[j]? = some e ∧ e.name = k ∧ j < i

/-- Entries of `τ'` are those of `τ` or correct torques. -/
def TauStep (t : Tree) (T : TreeElem → ℝ) (τ τ' : List ℝ) : Prop :=
  τ'.length = τ.length ∧ ∀ j, τ'[j]? = τ[j]? ∨ ∃ m ∈ t.segments, m.moving = true ∧ m.q_nr = j ∧ τ'[j]? = some (T m)

theorem TauStep.refl (t : Tree) (T : TreeElem → ℝ) (τ : List ℝ) : TauStep t T τ τ := ⟨rfl, fun _ => .inl rfl⟩
theorem TauStep.trans {t : Tree} {T : TreeElem → ℝ} {a b c : List ℝ} (h : TauStep t T a b) (h' : TauStep t T b c) :
    TauStep t T a c := by
  refine ⟨h'.1.trans h.1, fun j => ?_⟩
  rcases h'.2 j with e | e
  · rw [e]; exact h.2 j
  · exact .inr e
theorem TauStep.keep {t : Tree} (ht : t.WF) {T : TreeElem → ℝ} {a b : List ℝ} (h : TauStep t T a b) {m : TreeElem}
    (hm : m ∈ t.segments) (hmm : m.moving = true) (e : a[m.q_nr]? = some (T m)) : b[m.q_nr]? = some (T m) := by
  rcases h.2 m.q_nr with e' | ⟨m', h1, h2, h3, h4⟩
  · rw [e', e]
  · rw [h4, q_nr_inj ht h1 hm h2 hmm h3]
theorem TauStep.set {t : Tree} {T : TreeElem → ℝ} {a : List ℝ} {m : TreeElem}
    (hm : m ∈ t.segments) (hmm : m.moving = true) (hl : m.q_nr < a.length) : TauStep t T a (a.set m.q_nr (T m)) := by
  refine ⟨by simp, fun j => ?_⟩
  by_cases h : m.q_nr = j
  · right; exact ⟨m, hm, hmm, h, by subst h; simp [hl]⟩
  · left; rw [List.getElem?_set_ne h]

/-- What one call of the recursion on the non-root segment `n` at position `i` with parent `p` achieves. -/
structure StepOk (t : Tree) (q : ℕ → ℝ) (F : String → Wrench) (T : TreeElem → ℝ) (fuel i : ℕ) (n p : String)
    (y : TreeAux) (st st' : RneSt) : Prop where
  keys : ∀ m ∈ t.names, (st'.aux m).isSome
  before : ∀ k, Before t k i → k ≠ p → st'.aux k = st.aux k
  parent : st'.aux p = some { y with f := y.f + xE t q n * F n }
  step : TauStep t T st.torques st'.torques
  done : ∀ x ∈ t.segments, x.moving = true → x.name ∈ dfs t fuel [n] → st'.torques[x.q_nr]? = some (T x)

/-- The loop over children. -/
structure LoopOk (t : Tree) (q : ℕ → ℝ) (F : String → Wrench) (T : TreeElem → ℝ) (fuel i : ℕ) (n : String) (cs : List String)
    (y : TreeAux) (st st' : RneSt) : Prop where
  keys : ∀ m ∈ t.names, (st'.aux m).isSome
  before : ∀ k, Before t k i → st'.aux k = st.aux k
  self : st'.aux n = some { y with f := y.f + (cs.map fun c => xE t q c * F c).sum }
  step : TauStep t T st.torques st'.torques
  done : ∀ x ∈ t.segments, x.moving = true → x.name ∈ dfs t fuel cs → st'.torques[x.q_nr]? = some (T x)

theorem rne_loop {t : Tree} (ht : t.WF) (q : ℕ → ℝ) (V A : String → Twist) (F : String → Wrench) (T : TreeElem → ℝ)
    (step : String → RneSt → RneOut) (fuel i : ℕ) (n : String) (e : TreeElem) (hi : t.segments[i]? = some e)
    (hn : e.name = n)
    (IH : ∀ (ic : ℕ) (c : String) (x : TreeElem) (y : TreeAux) (st : RneSt), t.segments[ic]? = some x → x.name = c → i < ic →
      x.parent = some n → c ≠ t.root_name → (∀ m ∈ t.names, (st.aux m).isSome) → st.aux n = some y → y.v = V n → y.a = A n →
      st.torques.length = t.nrOfJoints →
      ∃ st', step c st = .ok st' ∧ StepOk t q F T fuel ic c n y st st') :
    ∀ (cs : List String) (y : TreeAux) (st : RneSt), (∀ c ∈ cs, c ∈ e.children) → (∀ m ∈ t.names, (st.aux m).isSome) →
      st.aux n = some y → y.v = V n → y.a = A n → st.torques.length = t.nrOfJoints →
      ∃ st', cs.foldl (fun (o : RneOut) c => o.next (step c)) (RneOut.ok st) = .ok st' ∧
        LoopOk t q F T fuel i n cs y st st' := by
  intro cs
  induction cs with
  | nil =>
    intro y st _ hk hy _ _ _
    have hd : dfs t fuel [] = [] := by cases fuel <;> simp [dfs]
    exact ⟨st, rfl, ⟨hk, fun _ _ => rfl, by simpa using hy, .refl .., by rw [hd]; simp⟩⟩
  | cons c cs ih =>
    intro y st hcs hk hy hyv hya hlen
    have hc := hcs c (by simp)
    have he := List.mem_of_getElem? hi
    obtain ⟨x, hx, hp, hr⟩ := child_find ht he hc
    rw [hn] at hp
    obtain ⟨ic, x', hix, hxn, hlt⟩ := above_children ht hi c hc
    have : x' = x := by
      have := find_of_get ht.nodup hix
      rw [hxn, hx] at this; cases this; rfl
    subst this
    obtain ⟨st1, h1, s1⟩ := IH ic c x' y st hix hxn (by omega) hp hr hk hy hyv hya hlen
    obtain ⟨st2, h2, s2⟩ := ih { y with f := y.f + xE t q c * F c } st1 (fun z hz => hcs z (by simp [hz])) s1.keys s1.parent
      hyv hya (s1.step.1.trans hlen)
    refine ⟨st2, ?_, s2.keys, ?_, ?_, s1.step.trans s2.step, ?_⟩
    · simp only [List.foldl_cons]
      rw [show RneOut.next (.ok st) (step c) = step c st from rfl, h1, h2]
    · intro k hkb
      rw [s2.before k hkb]
      obtain ⟨j, z, hj, hz, hji⟩ := hkb
      refine s1.before k ⟨j, z, hj, hz, by omega⟩ ?_
      intro hkn
      have := index_unique ht.nodup hj hi (by rw [hz, hn, hkn])
      omega
    · rw [s2.self]
      simp only [List.map_cons, List.sum_cons, add_assoc]
    · intro z hz hm hd
      rw [show (c :: cs) = [c] ++ cs from rfl, dfs_append, List.mem_append] at hd
      rcases hd with hd | hd
      · exact s2.step.keep ht hz hm (s1.done z hz hm hd)
      · exact s2.done z hz hm hd

section
variable {t : Tree} (ht : t.WF) (hR : t.Reach) (strict : Bool) (ag : Twist) (q qd qdd : List ℝ)
  (fext : String → Option Wrench) (V A : String → Twist) (F : String → Wrench)

/-- Everything before the children for the values used, given the parent's velocity and acceleration. -/
theorem rneStep_unfold (hq : q.length = t.nrOfJoints) (hqd : qd.length = t.nrOfJoints) (hqdd : qdd.length = t.nrOfJoints)
    (h0 : ∀ e ∈ t.segments, e.moving = true → e.q_nr < t.nrOfJoints)
    (fuel : ℕ) (n p : String) (e : TreeElem) (st : RneSt) (he : t.find n = some e) (hp : parentName strict e = some p)
    (ha : (st.aux n).isSome) (vp apr : Twist)
    (hpar : (n = t.root_name ∧ vp = 0 ∧ apr = ag) ∨
      (n ≠ t.root_name ∧ ∃ y, st.aux p = some y ∧ y.v = vp ∧ y.a = apr)) :
    rneStep t strict ag q qd qdd fext (fuel + 1) n st =
      (e.children.foldl (fun (o : RneOut) c => o.next (rneStep t strict ag q qd qdd fext fuel c))
        (RneOut.ok ⟨auxSet st.aux n ⟨Xs (rd q) e.segment e.q_nr, Ss (rd q) e.segment e.q_nr,
          up (rd q) (rd qd) e.segment e.q_nr vp, ap (rd q) (rd qd) (rd qdd) e.segment e.q_nr vp apr,
          fl e.segment (up (rd q) (rd qd) e.segment e.q_nr vp) (ap (rd q) (rd qd) (rd qdd) e.segment e.q_nr vp apr)
            ((fext n).getD 0)⟩, st.torques⟩)).next (rneAfter t qdd n p e) := by
  obtain ⟨x0, hx0⟩ := Option.isSome_iff_exists.mp ha
  have hread : (if e.moving then do
            let x ← q[e.q_nr]?
            let y ← qd[e.q_nr]?
            let z ← qdd[e.q_nr]?
            some (x, y, z)
          else some (0, 0, 0) : Option (ℝ × ℝ × ℝ)) =
      some (qv e.segment (rd q) e.q_nr, qv e.segment (rd qd) e.q_nr, qv e.segment (rd qdd) e.q_nr) := by
    have hmm : e.moving = e.segment.moving := rfl
    by_cases hm : e.moving = true
    · have hlt := h0 e (find_some he).1 hm
      rw [if_pos hm]
      rw [List.getElem?_eq_getElem (by omega), List.getElem?_eq_getElem (by omega), List.getElem?_eq_getElem (by omega)]
      rw [hmm] at hm
      simp [qv, hm, rd, hq, hqd, hqdd, hlt]
    · rw [if_neg hm]
      rw [hmm] at hm
      simp [qv, hm]
  have hpose : e.segment.pose (qv e.segment (rd q) e.q_nr) = Xs (rd q) e.segment e.q_nr := rfl
  have htw := invTwist_twist (rd q) (rd qd) e.segment e.q_nr
  have htw1 : (Xs (rd q) e.segment e.q_nr).M.invTwist (e.segment.twist (qv e.segment (rd q) e.q_nr) 1) =
    Ss (rd q) e.segment e.q_nr := rfl
  rw [rneStep]
  simp only [he, hp, hread, hx0, hpose, htw, htw1]
  rcases hpar with ⟨hr, rfl, rfl⟩ | ⟨hr, y, hy, rfl, rfl⟩
  · rw [if_pos hr]
    cases fext n <;> simp only [up, ap, fl, Frame.invTwist_zero, zero_add, Option.getD_none, Option.getD_some, sub_zero]
  · rw [if_neg hr, hy]
    cases fext n <;> simp only [up, ap, fl, Option.getD_none, Option.getD_some, sub_zero]

/-- The part after the children. -/
theorem rneAfter_eq (hqdd : qdd.length = t.nrOfJoints) (h0 : ∀ e ∈ t.segments, e.moving = true → e.q_nr < t.nrOfJoints)
    (n p : String) (e : TreeElem) (st : RneSt) (x : TreeAux) (he : t.find n = some e) (hx : st.aux n = some x)
    (hS : x.S = Ss (rd q) e.segment e.q_nr) (hf : x.f = F n) (hl : st.torques.length = t.nrOfJoints) :
    ∃ τ, TauStep t (tauE (rd q) (rd qdd) F) st.torques τ ∧
      (e.moving = true → τ[e.q_nr]? = some (tauE (rd q) (rd qdd) F e)) ∧
      (n = t.root_name → rneAfter t qdd n p e st = .ok ⟨st.aux, τ⟩) ∧
      (n ≠ t.root_name → ∀ y, st.aux p = some y →
        rneAfter t qdd n p e st = .ok ⟨auxSet st.aux p { y with f := y.f + x.X * F n }, τ⟩) := by
  have hen := (find_some he).2
  by_cases hm : e.moving = true
  · have hlt := h0 e (find_some he).1 hm
    have hq : qdd[e.q_nr]? = some (rd qdd e.q_nr) := by
      rw [List.getElem?_eq_getElem (by omega)]; simp [rd, hqdd, hlt]
    have ht : x.S.dot x.f + e.segment.joint.inertia * rd qdd e.q_nr = tauE (rd q) (rd qdd) F e := by
      rw [tauE, hS, hf, hen]
    refine ⟨st.torques.set e.q_nr (tauE (rd q) (rd qdd) F e), .set (find_some he).1 hm (by omega), fun _ => ?_, ?_, ?_⟩
    · simp [show e.q_nr < st.torques.length by omega]
    · intro hr
      unfold rneAfter
      simp only [hx, if_pos hm, hq, if_pos (show e.q_nr < st.torques.length by omega), ht]
      rw [if_neg (by simpa using hr)]
    · intro hr y hy
      unfold rneAfter
      simp only [hx, if_pos hm, hq, if_pos (show e.q_nr < st.torques.length by omega), ht]
      rw [if_pos hr, hy]
      simp only [hf]
  · refine ⟨st.torques, .refl .., fun h => absurd h hm, ?_, ?_⟩
    · intro hr
      unfold rneAfter
      simp only [hx, if_neg hm]
      rw [if_neg (by simpa using hr)]
    · intro hr y hy
      unfold rneAfter
      simp only [hx, if_neg hm]
      rw [if_pos hr, hy]
      simp only [hf]

include ht in
theorem rneStep_eq (hq : q.length = t.nrOfJoints) (hqd : qd.length = t.nrOfJoints) (hqdd : qdd.length = t.nrOfJoints)
    (h0 : ∀ e ∈ t.segments, e.moving = true → e.q_nr < t.nrOfJoints)
    (hV : ∀ n e p, t.find n = some e → n ≠ t.root_name → e.parent = some p →
      V n = up (rd q) (rd qd) e.segment e.q_nr (V p) ∧ A n = ap (rd q) (rd qd) (rd qdd) e.segment e.q_nr (V p) (A p))
    (hF : ∀ n e, t.find n = some e →
      F n = flE t V A fext n + (e.children.map fun c => xE t (rd q) c * F c).sum) :
    ∀ (fuel i : ℕ) (n p : String) (e : TreeElem) (y : TreeAux) (st : RneSt), t.segments[i]? = some e → e.name = n →
      e.parent = some p → n ≠ t.root_name → t.segments.length ≤ fuel + i → (∀ m ∈ t.names, (st.aux m).isSome) →
      st.aux p = some y → y.v = V p → y.a = A p → st.torques.length = t.nrOfJoints →
      ∃ st', rneStep t strict ag q qd qdd fext fuel n st = .ok st' ∧
        StepOk t (rd q) F (tauE (rd q) (rd qdd) F) fuel i n p y st st' := by
  intro fuel
  induction fuel with
  | zero =>
    intro i n p e y st hi _ _ _ hfu
    have := (List.getElem?_eq_some_iff.mp hi).1
    omega
  | succ fuel ih =>
    intro i n p e y st hi hen hp hr hfu hk hy hyv hya hl
    have he : t.find n = some e := by rw [← hen]; exact find_of_get ht.nodup hi
    have hnm : n ∈ t.names := mem_names.mpr ⟨e, he⟩
    have hi0 : i ≠ 0 := by
      rintro rfl
      obtain ⟨r, h1, h2, h3, _⟩ := ht.root
      rw [hi] at h1; cases h1
      rw [h3] at hp; cases hp
    obtain ⟨jp, pe, hjp, hgp, hpp⟩ := ht.parents i e hi hi0
    rw [hp] at hpp
    simp only [Option.some.injEq] at hpp
    have hpn : p ≠ n := by
      intro h
      have := index_unique ht.nodup hgp hi (by rw [← hpp, hen, h])
      omega
    have hpn' : parentName strict e = some p := by simp [parentName, hp]
    rw [rneStep_unfold strict ag q qd qdd fext hq hqd hqdd h0 fuel n p e st he hpn' (hk n hnm) (V p) (A p)
      (.inr ⟨hr, y, hy, hyv, hya⟩)]
    obtain ⟨hVn, hAn⟩ := hV n e p he hr hp
    rw [← hVn, ← hAn]
    set st0 : RneSt := ⟨auxSet st.aux n ⟨Xs (rd q) e.segment e.q_nr, Ss (rd q) e.segment e.q_nr, V n, A n,
      fl e.segment (V n) (A n) ((fext n).getD 0)⟩, st.torques⟩ with hst0
    obtain ⟨st1, h1, s1⟩ := rne_loop ht (rd q) V A F (tauE (rd q) (rd qdd) F)
      (rneStep t strict ag q qd qdd fext fuel) fuel i n e hi hen
      (fun ic c x y' st' g1 g2 g3 g4 g5 g6 g7 g8 g9 g10 => ih ic c n x y' st' g1 g2 g4 g5 (by omega) g6 g7 g8 g9 g10)
      e.children _ st0 (fun _ h => h)
      (fun m hm => by
        by_cases hmn : m = n
        · subst hmn; simp [hst0, auxSet]
        · simp only [hst0, auxSet_ne _ _ hmn]; exact hk m hm)
      (by rw [hst0]; exact auxSet_self ..) rfl rfl hl
    rw [h1]
    show ∃ st', rneAfter t qdd n p e st1 = .ok st' ∧ _
    have hFn : fl e.segment (V n) (A n) ((fext n).getD 0) + (e.children.map fun c => xE t (rd q) c * F c).sum = F n := by
      rw [hF n e he]; simp [flE, he]
    obtain ⟨τ, k1, k2, _, k4⟩ := rneAfter_eq q qdd F hqdd h0 n p e st1 _ he s1.self rfl hFn (s1.step.1.trans hl)
    have hpb : Before t p i := ⟨jp, pe, hgp, hpp.symm, hjp⟩
    have hp1 : st1.aux p = some y := by rw [s1.before p hpb, hst0]; simp only [auxSet_ne _ _ hpn]; exact hy
    refine ⟨_, k4 hr y hp1, ?_, ?_, ?_, s1.step.trans k1, ?_⟩
    · intro m hm
      by_cases hmp : m = p
      · subst hmp; simp [auxSet]
      · simp only [auxSet_ne _ _ hmp]; exact s1.keys m hm
    · intro k hkb hkp
      simp only [auxSet_ne _ _ hkp]
      rw [s1.before k hkb, hst0]
      refine auxSet_ne _ _ ?_
      intro hkn
      obtain ⟨j, z, hj, hz, hji⟩ := hkb
      have := index_unique ht.nodup hj hi (by rw [hz, hen, hkn])
      omega
    · simp only [auxSet_self]
      have : xE t (rd q) n = Xs (rd q) e.segment e.q_nr := by simp [xE, he]
      rw [this]
    · intro x hx hm hd
      have hd' : x.name ∈ n :: dfs t fuel e.children := by
        have : dfs t (fuel + 1) [n] = n :: dfs t fuel e.children := by simp [dfs, childrenOf_eq he]
        rwa [this] at hd
      rcases List.mem_cons.mp hd' with h | h
      · have : x = e := List.inj_on_of_nodup_map ht.nodup hx (List.mem_of_getElem? hi) (h.trans hen.symm)
        subst this
        exact k2 hm
      · exact k1.keep ht hx hm (s1.done x hx hm h)
end

/-- The whole call: every moving joint gets its torque. -/
theorem rne_root {t : Tree} (hR : t.Reach) (s : TreeRne) (q qd qdd τ0 : List ℝ)
    (fext : String → Option Wrench) (V A : String → Twist) (F : String → Wrench)
    (hnj : s.nj = t.nrOfJoints) (hns : s.ns = t.nrOfSegments) (hkeys : ∀ n ∈ t.names, (s.aux n).isSome)
    (hq : q.length = t.nrOfJoints) (hqd : qd.length = t.nrOfJoints) (hqdd : qdd.length = t.nrOfJoints)
    (hτ : τ0.length = t.nrOfJoints) (hV0 : V t.root_name = 0) (hA0 : A t.root_name = s.ag)
    (hV : ∀ n e p, t.find n = some e → n ≠ t.root_name → e.parent = some p →
      V n = up (rd q) (rd qd) e.segment e.q_nr (V p) ∧ A n = ap (rd q) (rd qd) (rd qdd) e.segment e.q_nr (V p) (A p))
    (hF : ∀ n e, t.find n = some e →
      F n = flE t V A fext n + (e.children.map fun c => xE t (rd q) c * F c).sum) :
    ∃ τ, s.cartToJnt t false q qd qdd fext τ0 = some (E_NOERROR, τ) ∧ τ.length = t.nrOfJoints ∧
      ∀ e ∈ t.segments, e.moving = true → τ[e.q_nr]? = some (tauE (rd q) (rd qdd) F e) := by
  have ht := hR.wf
  have h0 : ∀ e ∈ t.segments, e.moving = true → e.q_nr < t.nrOfJoints := by
    intro e he hm
    have : e.q_nr ∈ List.range t.nrOfJoints := by
      rw [← ht.numbering]; exact List.mem_map_of_mem (List.mem_filter.mpr ⟨he, hm⟩)
    simpa using this
  obtain ⟨r, g1, g2, g3, g4⟩ := ht.root
  have hrn : r.name = t.root_name := by show r.segment.name = _; rw [g2]; rfl
  have hr : t.find t.root_name = some r := by rw [← hrn]; exact find_of_get ht.nodup g1
  have hrm : r.moving = false := by show r.segment.moving = _; rw [g2]; rfl
  have hup : up (rd q) (rd qd) r.segment r.q_nr 0 = V t.root_name := by
    have : r.segment.moving = false := hrm
    rw [hV0, up, Frame.invTwist_zero, qv]; simp [this]
  have hX : Xs (rd q) r.segment r.q_nr = 1 := by rw [Xs, root_pose ht hr]
  have hap : ap (rd q) (rd qd) (rd qdd) r.segment r.q_nr 0 s.ag = A t.root_name := by
    have hm : r.segment.moving = false := hrm
    rw [ap, hup, hV0, hA0, hX]
    simp only [qv, hm]
    ext <;> simp [Frame.invTwist, Rot.invVec]
  have hun := rneStep_unfold false s.ag q qd qdd fext hq hqd hqdd h0 t.segments.length t.root_name "" r ⟨s.aux, τ0⟩ hr
    (by simp [parentName, g3]) (hkeys _ (mem_names.mpr ⟨r, hr⟩)) 0 s.ag (.inl ⟨rfl, rfl, rfl⟩)
  rw [hup, hap] at hun
  set st0 : RneSt := ⟨auxSet s.aux t.root_name ⟨Xs (rd q) r.segment r.q_nr, Ss (rd q) r.segment r.q_nr, V t.root_name,
    A t.root_name, fl r.segment (V t.root_name) (A t.root_name) ((fext t.root_name).getD 0)⟩, τ0⟩ with hst0
  obtain ⟨st1, h1, s1⟩ := rne_loop ht (rd q) V A F (tauE (rd q) (rd qdd) F)
    (rneStep t false s.ag q qd qdd fext t.segments.length) t.segments.length 0 t.root_name r g1 hrn
    (fun ic c x y' st' a1 a2 a3 a4 a5 a6 a7 a8 a9 a10 => rneStep_eq ht false s.ag q qd qdd fext V A F hq hqd hqdd h0 hV hF
      _ ic c t.root_name x y' st' a1 a2 a4 a5 (by omega) a6 a7 a8 a9 a10)
    r.children _ st0 (fun _ h => h)
    (fun m hm => by
      by_cases hmn : m = t.root_name
      · subst hmn; simp [hst0, auxSet]
      · simp only [hst0, auxSet_ne _ _ hmn]; exact hkeys m hm)
    (by rw [hst0]; exact auxSet_self ..) rfl rfl hτ
  rw [h1] at hun
  have hFn : fl r.segment (V t.root_name) (A t.root_name) ((fext t.root_name).getD 0) +
      (r.children.map fun c => xE t (rd q) c * F c).sum = F t.root_name := by
    rw [hF _ r hr]; simp [flE, hr]
  obtain ⟨τ, k1, _, k3, _⟩ := rneAfter_eq q qdd F hqdd h0 t.root_name "" r st1 _ hr s1.self rfl hFn (s1.step.1.trans hτ)
  have hun' : rneStep t false s.ag q qd qdd fext (t.segments.length + 1) t.root_name ⟨s.aux, τ0⟩ = .ok ⟨st1.aux, τ⟩ := by
    rw [hun]; exact k3 rfl
  refine ⟨τ, ?_, (k1.1.trans (s1.step.1.trans hτ)), fun e he hm => ?_⟩
  · unfold TreeRne.cartToJnt
    rw [if_neg (by simp [hnj, hns]), if_neg (by simp [hnj, hq, hqd, hqdd, hτ]), hun']
  · refine k1.keep ht he hm (s1.done e he hm ?_)
    have hmem : e.name ∈ t.names := List.mem_map_of_mem he
    have := hR.dfs_perm.mem_iff.mpr hmem
    rw [childrenOf_eq hr] at this
    rcases List.mem_cons.mp this with h | h
    · exfalso
      have : e = r := List.inj_on_of_nodup_map ht.nodup he (find_some hr).1 (h.trans hrn.symm)
      rw [this, hrm] at hm; cases hm
    · exact h

/-- Outcome of a step as far as missing map entries are concerned. -/
def KeyOutcome (t : Tree) (names : List String) (st : RneSt) (o : RneOut) : Prop :=
  ((∀ m ∈ names, (st.aux m).isSome) ∧ ∃ st', o = .ok st' ∧ (∀ k, (st'.aux k).isSome = (st.aux k).isSome) ∧
      st'.torques.length = t.nrOfJoints) ∨
    ((∃ m ∈ names, st.aux m = none) ∧ ∃ τ, o = .thrown τ ∧ τ.length = t.nrOfJoints)

theorem keys_loop (t : Tree) (step : String → RneSt → RneOut) (fuel : ℕ) (n : String) : ∀ (cs : List String),
    (∀ c ∈ cs, ∀ st, (st.aux n).isSome → st.torques.length = t.nrOfJoints →
      KeyOutcome t (dfs t fuel [c]) st (step c st)) →
    ∀ st, (st.aux n).isSome → st.torques.length = t.nrOfJoints →
      KeyOutcome t (dfs t fuel cs) st (cs.foldl (fun (o : RneOut) c => o.next (step c)) (RneOut.ok st)) := by
  intro cs
  induction cs with
  | nil =>
    intro _ st hn hl
    have hd : dfs t fuel [] = [] := by cases fuel <;> simp [dfs]
    left
    exact ⟨by simp [hd], st, rfl, fun _ => rfl, hl⟩
  | cons c cs ih =>
    intro h st hn hl
    have hd : ∀ m, m ∈ dfs t fuel (c :: cs) ↔ m ∈ dfs t fuel [c] ∨ m ∈ dfs t fuel cs := by
      intro m
      rw [show (c :: cs) = [c] ++ cs from rfl, dfs_append, List.mem_append]
    simp only [List.foldl_cons]
    rw [show RneOut.next (.ok st) (step c) = step c st from rfl]
    rcases h c (by simp) st hn hl with ⟨k1, st1, e1, k2, k3⟩ | ⟨⟨m, hm, k1⟩, τ, e1, k2⟩
    · rw [e1]
      rcases ih (fun c' hc' => h c' (by simp [hc'])) st1 (by rw [k2]; exact hn) k3 with
        ⟨j1, st2, e2, j2, j3⟩ | ⟨⟨m, hm, j1⟩, τ, e2, j2⟩
      · left
        refine ⟨fun m hm => ?_, st2, e2, fun k => (j2 k).trans (k2 k), j3⟩
        rcases (hd m).mp hm with hm | hm
        · exact k1 m hm
        · rw [← k2]; exact j1 m hm
      · right
        refine ⟨⟨m, (hd m).mpr (.inr hm), ?_⟩, τ, e2, j2⟩
        have := k2 m
        rw [j1] at this
        simpa using this.symm
    · right
      rw [e1]
      have : ∀ l : List String, l.foldl (fun (o : RneOut) c => o.next (step c)) (RneOut.thrown τ) = .thrown τ := by
        intro l
        induction l with
        | nil => rfl
        | cons a l ih => simp only [List.foldl_cons]; exact ih
      exact ⟨⟨m, (hd m).mpr (.inl hm), k1⟩, τ, this cs, k2⟩

theorem auxSet_isSome (m : String → Option TreeAux) (n k : String) (x : TreeAux) (h : (m n).isSome) :
    (auxSet m n x k).isSome = (m k).isSome := by
  by_cases hk : k = n
  · subst hk; simp [auxSet, h]
  · rw [auxSet_ne _ _ hk]

theorem rneStep_keys {t : Tree} (ht : t.WF) (strict : Bool) (ag : Twist) (q qd qdd : List ℝ) (fext : String → Option Wrench)
    (hq : q.length = t.nrOfJoints) (hqd : qd.length = t.nrOfJoints) (hqdd : qdd.length = t.nrOfJoints)
    (h0 : ∀ e ∈ t.segments, e.moving = true → e.q_nr < t.nrOfJoints) :
    ∀ (fuel i : ℕ) (n p : String) (e : TreeElem) (st : RneSt), t.segments[i]? = some e → e.name = n →
      parentName strict e = some p → (n = t.root_name ∨ (e.parent = some p ∧ (st.aux p).isSome)) →
      t.segments.length ≤ fuel + i → st.torques.length = t.nrOfJoints →
      KeyOutcome t (dfs t fuel [n]) st (rneStep t strict ag q qd qdd fext fuel n st) := by
  intro fuel
  induction fuel with
  | zero =>
    intro i n p e st hi _ _ _ hfu
    have := (List.getElem?_eq_some_iff.mp hi).1
    omega
  | succ fuel ih =>
    intro i n p e st hi hen hpn hpar hfu hl
    have he : t.find n = some e := by rw [← hen]; exact find_of_get ht.nodup hi
    have hd : dfs t (fuel + 1) [n] = n :: dfs t fuel e.children := by simp [dfs, childrenOf_eq he]
    rw [hd]
    cases hx : st.aux n with
    | none =>
      right
      refine ⟨⟨n, by simp, hx⟩, st.torques, ?_, hl⟩
      have hread : ∃ z, (if e.moving then do
            let x ← q[e.q_nr]?
            let y ← qd[e.q_nr]?
            let z ← qdd[e.q_nr]?
            some (x, y, z)
          else some (0, 0, 0) : Option (ℝ × ℝ × ℝ)) = some z := by
        by_cases hm : e.moving = true
        · have hlt := h0 e (find_some he).1 hm
          rw [if_pos hm, List.getElem?_eq_getElem (by omega), List.getElem?_eq_getElem (by omega),
            List.getElem?_eq_getElem (by omega)]
          exact ⟨_, rfl⟩
        · exact ⟨_, if_neg hm⟩
      obtain ⟨z, hz⟩ := hread
      rw [rneStep]
      simp only [he, hpn, hz, hx]
    | some x0 =>
      have hns : (st.aux n).isSome := by simp [hx]
      have hun : ∃ vp apr, rneStep t strict ag q qd qdd fext (fuel + 1) n st =
          (e.children.foldl (fun (o : RneOut) c => o.next (rneStep t strict ag q qd qdd fext fuel c))
          (RneOut.ok ⟨auxSet st.aux n ⟨Xs (rd q) e.segment e.q_nr, Ss (rd q) e.segment e.q_nr,
            up (rd q) (rd qd) e.segment e.q_nr vp, ap (rd q) (rd qd) (rd qdd) e.segment e.q_nr vp apr,
            fl e.segment (up (rd q) (rd qd) e.segment e.q_nr vp) (ap (rd q) (rd qd) (rd qdd) e.segment e.q_nr vp apr)
            ((fext n).getD 0)⟩, st.torques⟩)).next (rneAfter t qdd n p e) := by
        by_cases hr : n = t.root_name
        · exact ⟨0, ag, rneStep_unfold strict ag q qd qdd fext hq hqd hqdd h0 fuel n p e st he hpn hns 0 ag
            (.inl ⟨hr, rfl, rfl⟩)⟩
        · rcases hpar with h | ⟨_, h⟩
          · exact absurd h hr
          · obtain ⟨y, hy⟩ := Option.isSome_iff_exists.mp h
            exact ⟨y.v, y.a, rneStep_unfold strict ag q qd qdd fext hq hqd hqdd h0 fuel n p e st he hpn hns y.v y.a
              (.inr ⟨hr, y, hy, rfl, rfl⟩)⟩
      obtain ⟨vp, apr, hun⟩ := hun
      rw [hun]
      generalize hst0 : (⟨auxSet st.aux n _, st.torques⟩ : RneSt) = st0
      have hk0 : ∀ k, (st0.aux k).isSome = (st.aux k).isSome := fun k => by
        rw [← hst0]; exact auxSet_isSome _ _ _ _ hns
      have hl0 : st0.torques.length = t.nrOfJoints := by rw [← hst0]; exact hl
      have hloop := keys_loop t (rneStep t strict ag q qd qdd fext fuel) fuel n e.children (by
        intro c hc st' hn' hl'
        obtain ⟨x, hxf, hxp, hxr⟩ := child_find ht (List.mem_of_getElem? hi) hc
        obtain ⟨ic, x', hix, hxn, hlt⟩ := above_children ht hi c hc
        have : x' = x := by
          have := find_of_get ht.nodup hix
          rw [hxn, hxf] at this; cases this; rfl
        subst this
        rw [hen] at hxp
        exact ih ic c n x' st' hix hxn (by simp [parentName, hxp]) (.inr ⟨hxp, hn'⟩) (by omega) hl')
        st0 (by rw [hk0]; exact hns) hl0
      rcases hloop with ⟨k1, st1, e1, k2, k3⟩ | ⟨⟨m, hm, k1⟩, τ, e1, k2⟩
      · left
        refine ⟨?_, ?_⟩
        · intro m hm
          rcases List.mem_cons.mp hm with h | h
          · rw [h]; exact hns
          · rw [← hk0]; exact k1 m h
        rw [e1]
        show ∃ st', rneAfter t qdd n p e st1 = .ok st' ∧ _
        obtain ⟨x1, hx1⟩ := Option.isSome_iff_exists.mp (by rw [k2, hk0]; exact hns : (st1.aux n).isSome)
        have hτ : ∃ τ : List ℝ, τ.length = t.nrOfJoints ∧ rneAfter t qdd n p e st1 =
            if n ≠ t.root_name then
              match st1.aux p with
              | none => .thrown τ
              | some y => .ok ⟨auxSet st1.aux p { y with f := y.f + x1.X * x1.f }, τ⟩
            else .ok ⟨st1.aux, τ⟩ := by
          by_cases hm : e.moving = true
          · have hlt := h0 e (find_some he).1 hm
            refine ⟨st1.torques.set e.q_nr (x1.S.dot x1.f + e.segment.joint.inertia * qdd[e.q_nr]), by simp [k3], ?_⟩
            unfold rneAfter
            simp only [hx1, if_pos hm, List.getElem?_eq_getElem (show e.q_nr < qdd.length by omega),
              if_pos (show e.q_nr < st1.torques.length by omega)]
            rfl
          · refine ⟨st1.torques, k3, ?_⟩
            unfold rneAfter
            simp only [hx1, if_neg hm]
            rfl
        obtain ⟨τ, hτl, hτ⟩ := hτ
        rw [hτ]
        by_cases hr : n = t.root_name
        · rw [if_neg (by simpa using hr)]
          exact ⟨_, rfl, fun k => (k2 k).trans (hk0 k), hτl⟩
        · rw [if_pos hr]
          rcases hpar with h | ⟨_, h⟩
          · exact absurd h hr
          · have hp1 : (st1.aux p).isSome := by rw [k2, hk0]; exact h
            obtain ⟨y, hy⟩ := Option.isSome_iff_exists.mp hp1
            rw [hy]
            refine ⟨_, rfl, fun k => ?_, hτl⟩
            rw [← (k2 k).trans (hk0 k)]
            exact auxSet_isSome _ _ _ _ hp1
      · right
        rw [e1]
        refine ⟨⟨m, by simp [hm], ?_⟩, τ, rfl, k2⟩
        have := hk0 m
        rw [k1] at this
        simpa using this.symm

end Tree
end KDL
