import Verif.Model.InPlaceTree
import Verif.Props.InPlace
import Verif.Props.TreeDynamics

/-!
# C102: calls of the tree solver in place

The values for separate arrays are those of `Model/TreeDynamics.lean`.
-/

noncomputable section
namespace KDL
open Tree

/-- `m` is the segment `n` or lies below it. -/
inductive Under (t : Tree) (n : String) : String → Prop
  | self : Under t n n
  | step {m p : String} {e : TreeElem} : t.find m = some e → e.parent = some p → Under t n p → Under t n m

theorem child_parent {t : Tree} (ht : t.WF) {n c : String} {e : TreeElem} (he : t.find n = some e) (hc : c ∈ e.children) :
    ∃ x, t.find c = some x ∧ x.parent = some n := by
  obtain ⟨h1, h2⟩ := find_some he
  have hc' := hc
  rw [ht.children e h1] at hc'
  simp only [List.mem_map, List.mem_filter, decide_eq_true_eq] at hc'
  obtain ⟨x, ⟨hx, hp⟩, rfl⟩ := hc'
  exact ⟨x, find_of_mem ht.nodup hx, by rw [hp, h2]⟩

theorem Under.lift {t : Tree} (ht : t.WF) {n c m : String} {e : TreeElem} (he : t.find n = some e) (hc : c ∈ e.children)
    (h : Under t c m) : Under t n m := by
  induction h with
  | self => obtain ⟨x, h1, h2⟩ := child_parent ht he hc; exact .step h1 h2 .self
  | step h1 h2 _ ih => exact .step h1 h2 ih

theorem Under.split {t : Tree} (ht : t.WF) {n m : String} {e : TreeElem} (he : t.find n = some e) (h : Under t n m) :
    m = n ∨ ∃ c ∈ e.children, Under t c m := by
  induction h with
  | self => exact .inl rfl
  | @step m p x h1 h2 h3 ih =>
    right
    rcases ih with rfl | ⟨c, hc, hu⟩
    · refine ⟨m, ?_, .self⟩
      obtain ⟨a1, a2⟩ := find_some h1
      obtain ⟨b1, b2⟩ := find_some he
      rw [← a2, parent_of_child ht b1 a1, b2, h2]
    · exact ⟨c, hc, .step h1 h2 hu⟩

theorem Under.index {t : Tree} (ht : t.WF) {n m : String} (h : Under t n m) : ∀ {i k : ℕ} {a b : TreeElem},
    t.segments[i]? = some a → a.name = n → t.segments[k]? = some b → b.name = m → i ≤ k := by
  induction h with
  | self => intro i k a b h1 h2 h3 h4; exact (index_unique ht.nodup h1 h3 (h2.trans h4.symm)).le
  | @step m p x h1 h2 _ ih =>
    intro i k a b a1 a2 b1 b2
    have hb : t.find m = some b := by rw [← b2]; exact find_of_get ht.nodup b1
    rw [h1] at hb
    cases hb
    have hk : k ≠ 0 := by
      rintro rfl
      obtain ⟨r, r1, _, r3, _⟩ := ht.root
      rw [b1] at r1; cases r1
      rw [r3] at h2; cases h2
    obtain ⟨j, y, hj, y1, y2⟩ := ht.parents k _ b1 hk
    rw [h2] at y2
    have := ih a1 a2 y1 (Option.some.inj y2).symm
    omega

theorem not_under_parent {t : Tree} (ht : t.WF) {n c : String} {e : TreeElem} (he : t.find n = some e) (hc : c ∈ e.children) :
    ¬ Under t c n := by
  intro h
  obtain ⟨x, h1, h2⟩ := child_parent ht he hc
  obtain ⟨e1, e2⟩ := find_some he
  obtain ⟨i, hi⟩ := List.getElem?_of_mem e1
  obtain ⟨k, y, k1, k2, k3⟩ := above_children ht hi c hc
  have := h.index ht k1 k2 hi e2
  omega

theorem under_disjoint {t : Tree} (ht : t.WF) {n c d m : String} {e : TreeElem} (he : t.find n = some e) (hc : c ∈ e.children)
    (hd : d ∈ e.children) (hcd : c ≠ d) (h : Under t c m) : ¬ Under t d m := by
  induction h with
  | self =>
    intro h
    obtain ⟨x, h1, h2⟩ := child_parent ht he hc
    cases h with
    | self => exact hcd rfl
    | step a1 a2 a3 =>
      rw [h1] at a1; cases a1
      rw [h2] at a2; cases a2
      exact not_under_parent ht he hd a3
  | step b1 b2 b3 ih =>
    intro h
    cases h with
    | self =>
      obtain ⟨x, h1, h2⟩ := child_parent ht he hd
      rw [h1] at b1; cases b1
      rw [h2] at b2; cases b2
      exact not_under_parent ht he hc b3
    | step a1 a2 a3 =>
      rw [b1] at a1; cases a1
      rw [b2] at a2; cases a2
      exact ih a3

/-- The joints at and below a segment. -/
def jointsUnder (t : Tree) (n : String) : Set ℕ := {k | ∃ m x, Under t n m ∧ t.find m = some x ∧ x.moving = true ∧ x.q_nr = k}

theorem jointsUnder_disjoint {t : Tree} (ht : t.WF) {n c d : String} {e : TreeElem} (he : t.find n = some e)
    (hc : c ∈ e.children) (hd : d ∈ e.children) (hcd : c ≠ d) {k : ℕ} (h : k ∈ jointsUnder t c) : k ∉ jointsUnder t d := by
  rintro ⟨m', y, h1, h2, h3, h4⟩
  obtain ⟨m, x, g1, g2, g3, g4⟩ := h
  have := q_nr_inj ht (find_some g2).1 (find_some h2).1 g3 h3 (g4.trans h4.symm)
  subst this
  have : m = m' := (find_some g2).2.symm.trans (find_some h2).2
  subst this
  exact under_disjoint ht he hc hd hcd g1 h1

theorem own_not_under {t : Tree} (ht : t.WF) {n c : String} {e : TreeElem} (he : t.find n = some e)
    (hc : c ∈ e.children) (hm : e.moving = true) : e.q_nr ∉ jointsUnder t c := by
  rintro ⟨m, y, h1, h2, h3, h4⟩
  have := q_nr_inj ht (find_some h2).1 (find_some he).1 h3 hm h4
  subst this
  have : m = n := (find_some h2).2.symm.trans (find_some he).2
  subst this
  exact not_under_parent ht he hc h1

theorem jointsUnder_eq {t : Tree} (ht : t.WF) {n : String} {e : TreeElem} (he : t.find n = some e) (k : ℕ) :
    k ∈ jointsUnder t n ↔ (e.moving = true ∧ e.q_nr = k) ∨ ∃ c ∈ e.children, k ∈ jointsUnder t c := by
  constructor
  · rintro ⟨m, y, h1, h2, h3, h4⟩
    rcases h1.split ht he with rfl | ⟨c, hc, hu⟩
    · rw [he] at h2; cases h2; exact .inl ⟨h3, h4⟩
    · exact .inr ⟨c, hc, m, y, hu, h2, h3, h4⟩
  · rintro (⟨h1, h2⟩ | ⟨c, hc, m, y, h1, h2, h3, h4⟩)
    · exact ⟨n, e, .self, he, h1, h2⟩
    · exact ⟨m, y, h1.lift ht he hc, h2, h3, h4⟩

/-- The arrays of the two runs: `a` for separate objects, `b` in place, `o` at the start, `T` the joints written so far. -/
def InStep (φ : ℕ → ℝ → ℝ) (o : List ℝ) (T : Set ℕ) (a b : List ℝ) : Prop :=
  a.length = o.length ∧ b.length = o.length ∧
    ∀ k, (k ∈ T → b[k]? = a[k]?.map (φ k)) ∧ (k ∉ T → b[k]? = o[k]? ∧ a[k]? = o[k]?)

/-- The outcomes of the two runs. -/
def SameOut (φ : ℕ → ℝ → ℝ) (tau : ℕ) (h0 : JntStore) (T : Set ℕ) : RneOut → RneOutAt → Prop
  | .ub, .ub => True
  | .thrown a, .thrown h => ∃ T' b, h = h0.put tau b ∧ InStep φ (h0 tau) T' a b
  | .ok s, .ok s' => s'.aux = s.aux ∧ ∃ b, s'.h = h0.put tau b ∧ InStep φ (h0 tau) T s.torques b
  | _, _ => False

theorem sameOut_next {φ : ℕ → ℝ → ℝ} {tau : ℕ} {h0 : JntStore} {T T' : Set ℕ} {o : RneOut} {o' : RneOutAt}
    {f : RneSt → RneOut} {g : RneStAt → RneOutAt} (h : SameOut φ tau h0 T o o')
    (hf : ∀ s s', SameOut φ tau h0 T (.ok s) (.ok s') → SameOut φ tau h0 T' (f s) (g s')) :
    SameOut φ tau h0 T' (o.next f) (o'.next g) := by
  cases o <;> cases o' <;> simp only [SameOut, RneOut.next, RneOutAt.next] at h ⊢
  · exact h
  · exact hf _ _ h

theorem sameOut_loop {φ : ℕ → ℝ → ℝ} {tau : ℕ} {h0 : JntStore} (D : String → Set ℕ) (f : String → RneSt → RneOut)
    (g : String → RneStAt → RneOutAt) : ∀ (cs : List String) (T : Set ℕ) (o : RneOut) (o' : RneOutAt), cs.Nodup →
    (∀ c ∈ cs, ∀ k ∈ D c, k ∉ T) → (∀ c ∈ cs, ∀ d ∈ cs, c ≠ d → ∀ k ∈ D c, k ∉ D d) →
    (∀ c ∈ cs, ∀ (T : Set ℕ) s s', (∀ k ∈ D c, k ∉ T) → SameOut φ tau h0 T (.ok s) (.ok s') →
      SameOut φ tau h0 (T ∪ D c) (f c s) (g c s')) →
    SameOut φ tau h0 T o o' →
    SameOut φ tau h0 (T ∪ {k | ∃ c ∈ cs, k ∈ D c}) (cs.foldl (fun o c => o.next (f c)) o)
      (cs.foldl (fun o c => o.next (g c)) o') := by
  intro cs
  induction cs with
  | nil => intro T o o' _ _ _ _ h; simpa using h
  | cons c cs ih =>
    intro T o o' hn hT hD hs h
    rw [List.nodup_cons] at hn
    simp only [List.foldl_cons]
    have h1 : SameOut φ tau h0 (T ∪ D c) (o.next (f c)) (o'.next (g c)) :=
      sameOut_next h fun s s' hh => hs c (by simp) T s s' (hT c (by simp)) hh
    have := ih (T ∪ D c) _ _ hn.2 (fun d hd k hk => by
      rintro (hh | hh)
      · exact hT d (by simp [hd]) k hk hh
      · exact hD d (by simp [hd]) c (by simp) (by rintro rfl; exact hn.1 hd) k hk hh)
      (fun a ha b hb => hD a (by simp [ha]) b (by simp [hb])) (fun a ha => hs a (by simp [ha])) h1
    convert this using 1
    ext k
    simp only [Set.mem_union, Set.mem_setOf_eq, List.mem_cons, exists_eq_or_imp]
    tauto

/-- The torque of a joint as stored in place, from the one for separate arrays. -/
def StoredAs (t : Tree) (φ : ℕ → ℝ → ℝ) (qdd tau : ℕ) (h0 : JntStore) : Prop :=
  ∀ e ∈ t.segments, e.moving = true → ∀ x a, (h0 qdd)[e.q_nr]? = some a →
    φ e.q_nr (x + e.segment.joint.inertia * a) = x + e.segment.joint.inertia * (if tau = qdd then x else a)

theorem read_inStep {φ : ℕ → ℝ → ℝ} {tau : ℕ} {h0 : JntStore} {T : Set ℕ} {a b : List ℝ} (h : InStep φ (h0 tau) T a b) {k : ℕ}
    (hk : k ∉ T) (x : ℕ) : (h0.put tau b x)[k]? = (h0 x)[k]? := by
  by_cases hx : x = tau
  · subst hx; rw [JntStore.put_same]; exact ((h.2.2 k).2 hk).1
  · rw [JntStore.put_other _ _ hx]

theorem inStep_set {φ : ℕ → ℝ → ℝ} {o : List ℝ} {T : Set ℕ} {a b : List ℝ} (h : InStep φ o T a b) {j : ℕ} (hj : j < o.length)
    {x y : ℝ} (hy : y = φ j x) : InStep φ o (T ∪ {j}) (a.set j x) (b.set j y) := by
  obtain ⟨h1, h2, h3⟩ := h
  refine ⟨by simp [h1], by simp [h2], fun k => ?_⟩
  by_cases hk : k = j
  · subst hk
    refine ⟨fun _ => ?_, fun hn => absurd (Or.inr rfl) hn⟩
    rw [List.getElem?_set_self (by omega), List.getElem?_set_self (by omega)]
    simp [hy]
  · rw [List.getElem?_set_ne (Ne.symm hk), List.getElem?_set_ne (Ne.symm hk)]
    refine ⟨fun hh => (h3 k).1 (hh.resolve_right hk), fun hh => (h3 k).2 fun h' => hh (.inl h')⟩

theorem after_inStep {t : Tree} {φ : ℕ → ℝ → ℝ} {qdd tau : ℕ} {h0 : JntStore} (hφ : StoredAs t φ qdd tau h0) {T : Set ℕ}
    {n p : String} {e : TreeElem} (he : t.find n = some e) (hT : e.moving = true → e.q_nr ∉ T) {s : RneSt} {s' : RneStAt}
    (h : SameOut φ tau h0 T (.ok s) (.ok s')) :
    SameOut φ tau h0 (T ∪ {k | e.moving = true ∧ e.q_nr = k}) (rneAfter t (h0 qdd) n p e s) (rneAfterAt t qdd tau n p e s') := by
  obtain ⟨ha, b, hb, hs⟩ := h
  unfold rneAfter rneAfterAt
  rw [ha]
  cases s.aux n with
  | none => exact ⟨T, b, hb, hs⟩
  | some x =>
    dsimp only
    by_cases hm : e.moving = true
    · rw [if_pos hm, if_pos hm]
      have hset : {k | e.moving = true ∧ e.q_nr = k} = {e.q_nr} := by ext k; simp [hm, eq_comm]
      rw [hset]
      have hjT := hT hm
      unfold torqueAt
      rw [hb]
      simp only [JntStore.put_same]
      by_cases hl : e.q_nr < (h0 tau).length
      · have hlb : e.q_nr < b.length := by rw [hs.2.1]; exact hl
        have hla : e.q_nr < s.torques.length := by rw [hs.1]; exact hl
        rw [if_pos hlb]
        simp only [JntStore.put_put, JntStore.put_same]
        rw [List.getElem?_set_self hlb]
        cases hq : (h0 qdd)[e.q_nr]? with
        | none =>
          dsimp only
          have : (h0.put tau (b.set e.q_nr (x.S.dot x.f)) qdd)[e.q_nr]? = none := by
            by_cases hx : qdd = tau
            · subst hx; rw [List.getElem?_eq_none_iff] at hq; omega
            · rw [JntStore.put_other _ _ hx, hq]
          rw [this]
          trivial
        | some a =>
          have : (h0.put tau (b.set e.q_nr (x.S.dot x.f)) qdd)[e.q_nr]? = some (if tau = qdd then x.S.dot x.f else a) := by
            by_cases hx : qdd = tau
            · subst hx; rw [JntStore.put_same, List.getElem?_set_self hlb, if_pos rfl]
            · rw [JntStore.put_other _ _ hx, hq, if_neg (Ne.symm hx)]
          rw [this]
          simp only [if_pos hla, List.set_set]
          have hi := inStep_set hs hl (hφ e (find_some he).1 hm (x.S.dot x.f) a hq).symm
          by_cases hr : n = t.root_name
          · rw [if_neg (not_not.mpr hr), if_neg (not_not.mpr hr)]
            exact ⟨rfl, _, rfl, hi⟩
          · rw [if_pos hr, if_pos hr]
            cases s.aux p with
            | none => exact ⟨_, _, rfl, hi⟩
            | some y => exact ⟨rfl, _, rfl, hi⟩
      · have hlb : ¬ e.q_nr < b.length := by rw [hs.2.1]; exact hl
        have hla : ¬ e.q_nr < s.torques.length := by rw [hs.1]; exact hl
        rw [if_neg hlb]
        cases (h0 qdd)[e.q_nr]? with
        | none => trivial
        | some a => simp only [if_neg hla]; trivial
    · rw [if_neg hm, if_neg hm]
      have hset : T ∪ {k | e.moving = true ∧ e.q_nr = k} = T := by ext k; simp [hm]
      rw [hset]
      dsimp only
      by_cases hr : n = t.root_name
      · rw [if_neg (not_not.mpr hr), if_neg (not_not.mpr hr)]
        exact ⟨rfl, b, hb, hs⟩
      · rw [if_pos hr, if_pos hr]
        cases s.aux p with
        | none => exact ⟨T, b, hb, hs⟩
        | some y => exact ⟨rfl, b, hb, hs⟩

theorem step_inStep {t : Tree} (ht : t.WF) (strict : Bool) (ag : Twist) {φ : ℕ → ℝ → ℝ} (q qd : ℕ) {qdd tau : ℕ} {h0 : JntStore}
    (hφ : StoredAs t φ qdd tau h0) (fext : String → Option Wrench) : ∀ (fuel : ℕ) (n : String) (T : Set ℕ) (s : RneSt) (s' : RneStAt),
    (∀ k ∈ jointsUnder t n, k ∉ T) → SameOut φ tau h0 T (.ok s) (.ok s') →
    SameOut φ tau h0 (T ∪ jointsUnder t n) (rneStep t strict ag (h0 q) (h0 qd) (h0 qdd) fext fuel n s)
      (rneStepAt t strict ag q qd qdd tau fext fuel n s') := by
  intro fuel
  induction fuel with
  | zero => intro n T s s' _ _; trivial
  | succ fuel ih =>
    intro n T s s' hT h
    obtain ⟨ha, b, hb, hs⟩ := h
    unfold rneStep rneStepAt
    cases he : t.find n with
    | none => trivial
    | some e =>
      dsimp only
      cases parentName strict e with
      | none => trivial
      | some p =>
        dsimp only
        have hread : (if e.moving then do
            let x ← (s'.h q)[e.q_nr]?
            let y ← (s'.h qd)[e.q_nr]?
            let z ← (s'.h qdd)[e.q_nr]?
            some (x, y, z)
          else some (0, 0, 0) : Option (ℝ × ℝ × ℝ)) = if e.moving then do
            let x ← (h0 q)[e.q_nr]?
            let y ← (h0 qd)[e.q_nr]?
            let z ← (h0 qdd)[e.q_nr]?
            some (x, y, z)
          else some (0, 0, 0) := by
          by_cases hm : e.moving = true
          · have hk : e.q_nr ∉ T := hT _ ⟨n, e, .self, he, hm, rfl⟩
            rw [if_pos hm, if_pos hm, hb, read_inStep hs hk, read_inStep hs hk, read_inStep hs hk]
          · rw [if_neg hm, if_neg hm]
        rw [hread, ha]
        generalize (if e.moving then do
            let x ← (h0 q)[e.q_nr]?
            let y ← (h0 qd)[e.q_nr]?
            let z ← (h0 qdd)[e.q_nr]?
            some (x, y, z)
          else some (0, 0, 0) : Option (ℝ × ℝ × ℝ)) = r
        cases r with
        | none => trivial
        | some r =>
          obtain ⟨q_, qdot_, qdotdot_⟩ := r
          dsimp only
          cases s.aux n with
          | none => exact ⟨T, b, hb, hs⟩
          | some z =>
            dsimp only
            generalize (if n = t.root_name then _ else _ : Option (Twist × Twist)) = w
            cases w with
            | none => exact ⟨T, b, hb, hs⟩
            | some w =>
              obtain ⟨v, a⟩ := w
              dsimp only
              have hch : ∀ c ∈ e.children, ∀ k ∈ jointsUnder t c, k ∉ T := fun c hc k hk =>
                hT k ((jointsUnder_eq ht he k).mpr (.inr ⟨c, hc, hk⟩))
              have hnd : e.children.Nodup := by
                rw [ht.children e (find_some he).1]
                exact (ht.nodup.sublist (List.Sublist.map _ List.filter_sublist))
              have h1 : ∀ m, SameOut φ tau h0 _ _ _ := fun m => sameOut_loop (φ := φ) (tau := tau) (h0 := h0) (jointsUnder t)
                (rneStep t strict ag (h0 q) (h0 qd) (h0 qdd) fext fuel) (rneStepAt t strict ag q qd qdd tau fext fuel)
                e.children T _ _ hnd hch (fun c hc d hd hcd k hk => jointsUnder_disjoint ht he hc hd hcd hk)
                (fun c hc T s s' hT h => ih c T s s' hT h)
                (show SameOut φ tau h0 T (.ok ⟨m, s.torques⟩) (.ok ⟨m, s'.h⟩) from ⟨rfl, b, hb, hs⟩)
              have h2 := fun m => sameOut_next (h1 m) (fun u u' hu => after_inStep hφ (p := p) he (fun hm => by
                rintro (hh | ⟨c, hc, hk⟩)
                · exact hT _ ((jointsUnder_eq ht he _).mpr (.inl ⟨hm, rfl⟩)) hh
                · exact own_not_under ht he hc hm hk) hu)
              have hset : T ∪ jointsUnder t n =
                  T ∪ {k | ∃ c ∈ e.children, k ∈ jointsUnder t c} ∪ {k | e.moving = true ∧ e.q_nr = k} := by
                ext k
                simp only [Set.mem_union, Set.mem_setOf_eq, jointsUnder_eq ht he k]
                rw [or_assoc, or_comm (a := e.moving = true ∧ e.q_nr = k)]
              rw [hset]
              cases fext n <;> exact h2 _

/-- `TreeIdSolver_RNE::CartToJnt` with `torques` another object than `q_dotdot`: whether or not `torques` is `q` or `q_dot`
(or these are one object), the call computes what it computes for separate objects, and changes `torques` only.  The torques of
one branch are written before the positions of the next are read, but no two segments share a joint. -/
theorem C102_tree (t : Tree) (ht : t.Reach) (s : TreeRne) (strict : Bool) (q qd qdd : ℕ) (fext : String → Option Wrench)
    (tau : ℕ) (h : JntStore) (hne : tau ≠ qdd) :
    s.cartToJntAt t strict q qd qdd fext tau h =
      (s.cartToJnt t strict (h q) (h qd) (h qdd) fext (h tau)).map (wrote h tau) := by
  unfold TreeRne.cartToJntAt TreeRne.cartToJnt
  split
  · simp [wrote, JntStore.put_self]
  split
  · simp [wrote, JntStore.put_self]
  have key := step_inStep ht.wf strict s.ag (φ := fun _ x => x) q qd (qdd := qdd) (tau := tau) (h0 := h)
    (fun e _ _ x a _ => by rw [if_neg hne]) fext (t.segments.length + 1) t.root_name ∅ ⟨s.aux, h tau⟩ ⟨s.aux, h⟩
    (fun k _ => id) ⟨rfl, h tau, (JntStore.put_self h tau).symm, rfl, rfl, fun k => ⟨fun hk => absurd hk (by simp), fun _ => ⟨rfl, rfl⟩⟩⟩
  have heq : ∀ {T : Set ℕ} {a b : List ℝ}, InStep (fun _ x => x) (h tau) T a b → b = a := by
    intro T a b hh
    apply List.ext_getElem?
    intro k
    by_cases hk : k ∈ T
    · simpa using (hh.2.2 k).1 hk
    · rw [((hh.2.2 k).2 hk).1, ((hh.2.2 k).2 hk).2]
  generalize rneStep t strict s.ag (h q) (h qd) (h qdd) fext (t.segments.length + 1) t.root_name ⟨s.aux, h tau⟩ = o at key ⊢
  generalize rneStepAt t strict s.ag q qd qdd tau fext (t.segments.length + 1) t.root_name ⟨s.aux, h⟩ = o' at key ⊢
  cases o <;> cases o' <;> simp only [SameOut] at key
  · rfl
  · obtain ⟨T, b, rfl, hb⟩ := key
    rw [heq hb]; rfl
  · obtain ⟨_, b, hb, hs⟩ := key
    rw [heq hs] at hb
    simp [wrote, hb]

theorem under_root {t : Tree} (ht : t.WF) : ∀ (i : ℕ) (e : TreeElem), t.segments[i]? = some e → Under t t.root_name e.name := by
  intro i
  induction i using Nat.strong_induction_on with
  | _ i ih =>
    intro e he
    by_cases hi : i = 0
    · subst hi
      obtain ⟨r, r1, r2, _⟩ := ht.root
      rw [he] at r1; cases r1
      have : e.name = t.root_name := by simp [TreeElem.name, r2, Segment.ofName]
      rw [this]; exact .self
    · obtain ⟨j, p, hj, h1, h2⟩ := ht.parents i e he hi
      exact .step (find_of_get ht.nodup he) h2 (ih j hj p h1)

/-- `torques` and `q_dotdot` one object: instead of the torque `T` of a joint with inertia `I` the call stores
`(1 + I) * (T - I * q_dotdot)`. -/
theorem C102_tree_over (t : Tree) (ht : t.Reach) (s : TreeRne) (strict : Bool) (q qd acc : ℕ) (fext : String → Option Wrench)
    (h : JntStore) (T : List ℝ)
    (hT : s.cartToJnt t strict (h q) (h qd) (h acc) fext (h acc) = some (E_NOERROR, T)) :
    ∃ r, s.cartToJntAt t strict q qd acc fext acc h = some (E_NOERROR, h.put acc r) ∧ r.length = t.nrOfJoints ∧
      T.length = t.nrOfJoints ∧
      ∀ e ∈ t.segments, e.moving = true →
        r.getD e.q_nr 0 = (1 + e.segment.joint.inertia) * (T.getD e.q_nr 0 - e.segment.joint.inertia * (h acc).getD e.q_nr 0) := by
  unfold TreeRne.cartToJnt at hT
  unfold TreeRne.cartToJntAt
  by_cases h1 : s.nj ≠ t.nrOfJoints ∨ s.ns ≠ t.nrOfSegments
  · rw [if_pos h1] at hT; simp [E_NOT_UP_TO_DATE, E_NOERROR] at hT
  rw [if_neg h1] at hT ⊢
  by_cases h2 : (h q).length ≠ s.nj ∨ (h qd).length ≠ s.nj ∨ (h acc).length ≠ s.nj ∨ (h acc).length ≠ s.nj
  · rw [if_pos h2] at hT; simp [E_SIZE_MISMATCH, E_NOERROR] at hT
  rw [if_neg h2] at hT ⊢
  classical
  have hφ : ∃ φ : ℕ → ℝ → ℝ, ∀ e ∈ t.segments, e.moving = true → ∀ x, φ e.q_nr x =
      (1 + e.segment.joint.inertia) * (x - e.segment.joint.inertia * (h acc).getD e.q_nr 0) := by
    refine ⟨fun k x => if hk : ∃ e ∈ t.segments, e.moving = true ∧ e.q_nr = k then
      (1 + hk.choose.segment.joint.inertia) * (x - hk.choose.segment.joint.inertia * (h acc).getD k 0) else x, ?_⟩
    intro e he hm x
    have hk : ∃ e' ∈ t.segments, e'.moving = true ∧ e'.q_nr = e.q_nr := ⟨e, he, hm, rfl⟩
    have := q_nr_inj ht.wf hk.choose_spec.1 he hk.choose_spec.2.1 hm hk.choose_spec.2.2
    dsimp only
    rw [dif_pos hk, this]
  obtain ⟨φ, hφ⟩ := hφ
  have key := step_inStep ht.wf strict s.ag (φ := φ) q qd (qdd := acc) (tau := acc) (h0 := h)
    (fun e he hm x a ha => by
      rw [if_pos rfl, hφ e he hm, List.getD_eq_getElem?_getD, ha, Option.getD_some]; ring) fext (t.segments.length + 1) t.root_name ∅
    ⟨s.aux, h acc⟩ ⟨s.aux, h⟩ (fun k _ => id)
    ⟨rfl, h acc, (JntStore.put_self h acc).symm, rfl, rfl, fun k => ⟨fun hk => absurd hk (by simp), fun _ => ⟨rfl, rfl⟩⟩⟩
  generalize rneStep t strict s.ag (h q) (h qd) (h acc) fext (t.segments.length + 1) t.root_name ⟨s.aux, h acc⟩ = o at key hT
  generalize rneStepAt t strict s.ag q qd acc acc fext (t.segments.length + 1) t.root_name ⟨s.aux, h⟩ = o' at key ⊢
  cases o <;> cases o' <;> simp only [SameOut] at key
  · simp at hT
  · simp [E_NOT_UP_TO_DATE, E_NOERROR] at hT
  · obtain ⟨_, b, hb, hs⟩ := key
    simp only [Option.some.injEq, Prod.mk.injEq, true_and] at hT
    rw [hT] at hs
    have h4 : (h acc).length = t.nrOfJoints := by
      by_contra hne
      exact h2 (by simp only [not_or, not_not] at h1; rw [h1.1]; simp [hne])
    refine ⟨b, by simp [hb], by rw [hs.2.1, h4], by rw [hs.1, h4], fun e he hm => ?_⟩
    obtain ⟨i, hi⟩ := List.getElem?_of_mem he
    have hu : e.q_nr ∈ (∅ : Set ℕ) ∪ jointsUnder t t.root_name :=
      .inr ⟨e.name, e, under_root ht.wf i e hi, find_of_mem ht.wf.nodup he, hm, rfl⟩
    have h3 := (hs.2.2 e.q_nr).1 hu
    have hlt : e.q_nr < T.length := by
      have : e.q_nr ∈ (t.segments.filter TreeElem.moving).map TreeElem.q_nr :=
        List.mem_map_of_mem (by simp [he, hm])
      rw [ht.wf.numbering, List.mem_range] at this
      rw [hs.1]; omega
    rw [List.getD_eq_getElem?_getD, h3, List.getD_eq_getElem?_getD, List.getElem?_eq_getElem hlt]
    simp [hφ e he hm]

/-- Missing from the claim: joints with inertia, for which it fails (`C102_tree_violated`).  With joints without inertia
`torques` may be the array of the accelerations. -/
theorem C102_tree_over_partial (t : Tree) (ht : t.Reach) (hI : ∀ e ∈ t.segments, e.moving = true → e.segment.joint.inertia = 0)
    (s : TreeRne) (strict : Bool) (q qd acc : ℕ) (fext : String → Option Wrench) (h : JntStore) (T : List ℝ)
    (hT : s.cartToJnt t strict (h q) (h qd) (h acc) fext (h acc) = some (E_NOERROR, T)) :
    s.cartToJntAt t strict q qd acc fext acc h = some (wrote h acc (E_NOERROR, T)) := by
  obtain ⟨r, h1, h2, h2', h3⟩ := C102_tree_over t ht s strict q qd acc fext h T hT
  have : r = T := by
    apply List.ext_getElem (h2.trans h2'.symm)
    intro j hj1 hj2
    have hj : j ∈ (t.segments.filter TreeElem.moving).map TreeElem.q_nr := by
      rw [ht.wf.numbering, List.mem_range]; omega
    rw [List.mem_map] at hj
    obtain ⟨e, he, rfl⟩ := hj
    rw [List.mem_filter] at he
    have := h3 e he.1 he.2
    rw [hI e he.1 he.2] at this
    simpa [List.getD_eq_getElem?_getD, List.getElem?_eq_getElem hj1, List.getElem?_eq_getElem hj2] using this
  rw [h1, this]
  rfl

/-- A tree with the one link `motorOnly`. -/
def motorTree : Tree := ((Tree.new "r").addSegment ⟨"A", ⟨"", .TransX, 1, 0, 1, 0, 0, ⟨0, 0, 0⟩, ⟨0, 0, 0⟩⟩, RBI.zero, ⟨1, ⟨0, 0, 0⟩⟩⟩ "r").2

theorem motorTree_reach : motorTree.Reach := .add _ _ (.new _)

theorem motorTree_eq : motorTree = ⟨[⟨Segment.ofName "r", 0, none, ["A"]⟩,
    ⟨⟨"A", ⟨"", .TransX, 1, 0, 1, 0, 0, ⟨0, 0, 0⟩, ⟨0, 0, 0⟩⟩, RBI.zero, ⟨1, ⟨0, 0, 0⟩⟩⟩, 0, some "r", []⟩], 1, 1, "r"⟩ := by
  simp [motorTree, addSegment, find, Tree.new, TreeElem.name, Segment.ofName, attach, Segment.moving, Joint.moving]

theorem motorTree_id (x y z w : ℝ) (aux : String → Option TreeAux) (h1 : (aux "r").isSome) (h2 : (aux "A").isSome) :
    TreeRne.cartToJnt ⟨1, 1, 0, aux⟩ motorTree false [x] [y] [z] (fun _ => none) [w] = some (E_NOERROR, [z]) := by
  obtain ⟨a, ha⟩ := Option.isSome_iff_exists.mp h1
  obtain ⟨b, hb⟩ := Option.isSome_iff_exists.mp h2
  have hf1 : motorTree.find "r" = some ⟨Segment.ofName "r", 0, none, ["A"]⟩ := by
    rw [motorTree_eq]; simp [find, TreeElem.name, Segment.ofName]
  have hf2 : motorTree.find "A" = some ⟨⟨"A", ⟨"", .TransX, 1, 0, 1, 0, 0, ⟨0, 0, 0⟩, ⟨0, 0, 0⟩⟩, RBI.zero, ⟨1, ⟨0, 0, 0⟩⟩⟩, 0, some "r", []⟩ := by
    rw [motorTree_eq]; simp [find, TreeElem.name, Segment.ofName]
  have hr : motorTree.root_name = "r" := by rw [motorTree_eq]
  have hl : motorTree.segments.length = 2 := by rw [motorTree_eq]; rfl
  have hj : motorTree.nrOfJoints = 1 := by rw [motorTree_eq]
  have hs : motorTree.nrOfSegments = 1 := by rw [motorTree_eq]
  unfold TreeRne.cartToJnt
  rw [hj, hs, hl, hr]
  simp only [ne_eq, not_true_eq_false, or_self, if_false, List.length_cons, List.length_nil, zero_add]
  simp [rneStep, hf1, hf2, hr, parentName, TreeElem.moving, Segment.moving, Joint.moving, Segment.ofName, ha, hb, RneOut.next, rneAfter,
    auxSet, zero_body, twist_zeroWrench]

/-- The claim fails when `torques` is the array of the accelerations: for a motor with inertia 1 that is to accelerate by 1
the torque is 1, but the call in place returns 0. -/
theorem C102_tree_violated : ∃ (t : Tree) (h : JntStore), t.Reach ∧
    (TreeRne.new t 0).cartToJnt t false (h 0) (h 1) (h 2) (fun _ => none) (h 2) = some (E_NOERROR, [1]) ∧
    ∃ h', (TreeRne.new t 0).cartToJntAt t false 0 1 2 (fun _ => none) 2 h = some (E_NOERROR, h') ∧ h' 2 = [0] := by
  obtain ⟨h, hh⟩ : ∃ h : JntStore, h = fun x => if x = 2 then [1] else [0] := ⟨_, rfl⟩
  have e0 : h 0 = [0] := by rw [hh]; simp
  have e1 : h 1 = [0] := by rw [hh]; simp
  have e2 : h 2 = [1] := by rw [hh]; simp
  have hk := C36_keys motorTree 0 (TreeRne.new motorTree 0)
  have hn : motorTree.names = ["r", "A"] := by rw [motorTree_eq]; simp [names, TreeElem.name, Segment.ofName]
  have hnew : TreeRne.new motorTree 0 = ⟨1, 1, 0, (TreeRne.new motorTree 0).aux⟩ := by
    have : (-⟨0, 0⟩ : Twist) = 0 := by ext <;> simp
    unfold TreeRne.new
    rw [this, show motorTree.nrOfJoints = 1 by rw [motorTree_eq], show motorTree.nrOfSegments = 1 by rw [motorTree_eq]]
  have h0 : (TreeRne.new motorTree 0).cartToJnt motorTree false (h 0) (h 1) (h 2) (fun _ => none) (h 2) = some (E_NOERROR, [1]) := by
    rw [hnew, e0, e1, e2]
    exact motorTree_id 0 0 1 1 _ (hk.1 "r" (by simp [hn])) (hk.1 "A" (by simp [hn]))
  refine ⟨motorTree, h, motorTree_reach, h0, ?_⟩
  obtain ⟨r, h1, h2, _, h3⟩ := C102_tree_over motorTree motorTree_reach _ false 0 1 2 _ h [1] h0
  refine ⟨_, h1, ?_⟩
  rw [JntStore.put_same]
  have := h3 ⟨⟨"A", ⟨"", .TransX, 1, 0, 1, 0, 0, ⟨0, 0, 0⟩, ⟨0, 0, 0⟩⟩, RBI.zero, ⟨1, ⟨0, 0, 0⟩⟩⟩, 0, some "r", []⟩ (by rw [motorTree_eq]; simp) rfl
  rw [e2] at this
  rw [show motorTree.nrOfJoints = 1 by rw [motorTree_eq]] at h2
  match r, h2 with
  | [x], _ =>
    simp at this
    rw [this]

/-- The case `torques` = `q` of `C102_tree` occurs and changes the array. -/
example : ∃ (t : Tree) (h h' : JntStore), t.Reach ∧
    (TreeRne.new t 0).cartToJntAt t false 0 1 2 (fun _ => none) 0 h = some (E_NOERROR, h') ∧ h' 0 ≠ h 0 := by
  obtain ⟨h, hh⟩ : ∃ h : JntStore, h = fun x => if x = 2 then [1] else [0] := ⟨_, rfl⟩
  have e0 : h 0 = [0] := by rw [hh]; simp
  have e1 : h 1 = [0] := by rw [hh]; simp
  have e2 : h 2 = [1] := by rw [hh]; simp
  have hk := C36_keys motorTree 0 (TreeRne.new motorTree 0)
  have hn : motorTree.names = ["r", "A"] := by rw [motorTree_eq]; simp [names, TreeElem.name, Segment.ofName]
  have hnew : TreeRne.new motorTree 0 = ⟨1, 1, 0, (TreeRne.new motorTree 0).aux⟩ := by
    have : (-⟨0, 0⟩ : Twist) = 0 := by ext <;> simp
    unfold TreeRne.new
    rw [this, show motorTree.nrOfJoints = 1 by rw [motorTree_eq], show motorTree.nrOfSegments = 1 by rw [motorTree_eq]]
  refine ⟨motorTree, h, h.put 0 [1], motorTree_reach, ?_, by rw [JntStore.put_same, e0]; simp⟩
  rw [C102_tree _ motorTree_reach _ _ _ _ _ _ _ _ (by norm_num), hnew, e0, e1, e2,
    motorTree_id 0 0 1 0 _ (hk.1 "r" (by simp [hn])) (hk.1 "A" (by simp [hn]))]
  rfl

/-- The hypotheses of `C102_tree_over_partial` can be met: a tree without joint inertia. -/
example (grav : Vec) : ∃ T, (TreeRne.new exTree grav).cartToJnt exTree false [0, 0, 0] [0, 0, 0] [1, 1, 1] (fun _ => none) [1, 1, 1] =
    some (E_NOERROR, T) ∧ ∀ e ∈ exTree.segments, e.moving = true → e.segment.joint.inertia = 0 := by
  have hnj : exTree.nrOfJoints = 3 := by rw [exTree_eq]
  obtain ⟨code, τ, h1, h2, h3⟩ := C36_outcome_partial exTree exTree_reach (TreeRne.new exTree grav) [0, 0, 0] [0, 0, 0] [1, 1, 1]
    (fun _ => none) [1, 1, 1] rfl rfl (by rw [hnj]; rfl) (by rw [hnj]; rfl) (by rw [hnj]; rfl) (by rw [hnj]; rfl)
  rw [if_pos (C36_keys exTree grav (TreeRne.new exTree grav)).1] at h3
  refine ⟨τ, by rw [h1, h3], ?_⟩
  rw [exTree_eq]
  intro e he
  simp only [List.mem_cons, List.not_mem_nil, or_false] at he
  rcases he with rfl | rfl | rfl | rfl <;> simp [exLink, Segment.ofName]

end KDL
