import Verif.Model.RoundingTree
import Verif.Lemmas.TreeKin
import Verif.Props.RoundingDyn

/-! C110: rounding errors of the tree solvers for position and Jacobian. -/

namespace KDL

/-! ## the bound: rational numbers, computed along the path -/

/-- Error of the rotation of a frame, error and length of its origin. -/
structure FErr where
  d : ℚ
  p : VErr

namespace FErr
/-- Product; the second factor is a single segment. -/
def mul (u : ℚ) (x y : FErr) : FErr := ⟨x.d + (7 / 4 + x.d) * (y.d + gq u * (7 / 4 + y.d)), (y.p.map u x.d).add u x.p⟩
/-- Product; the first factor is a single segment. -/
def mulL (u : ℚ) (x y : FErr) : FErr := ⟨y.d + (7 / 4 + y.d) * (x.d + gq u * (7 / 4 + x.d)), (y.p.map u x.d).add u x.p⟩
end FErr

/-- What is known of the machine and of the elements of the tree: unit roundoff, pose of an element, its twist at the rate 1. -/
structure TreeB where
  u : ℚ
  s : FErr
  un : TErr

namespace TreeB
variable (b : TreeB)
/-- Pose of an element at depth `n`. -/
def pose : ℕ → FErr
  | 0 => b.s
  | n + 1 => (pose n).mul b.u b.s
/-- Frame of the last `k` elements of a path. -/
def T : ℕ → FErr
  | 0 => ⟨0, ⟨0, 0⟩⟩
  | k + 1 => b.s.mulL b.u (T k)
/-- Column of the `k`-th element from the end of the path, in coordinates of the end. -/
def col (k : ℕ) : TErr :=
  TErr.inv b.u (b.T (k + 1)).d ⟨b.un.a.add b.u (b.un.b.cross b.u ((b.T (k + 1)).p.add b.u b.s.p)), b.un.b⟩
/-- The same in coordinates of the root, for a path of `N` elements. -/
def column (N k : ℕ) : TErr := (b.col k).inv b.u (b.T N).d
end TreeB

noncomputable section

/-! ## vocabulary -/

/-- The computed frame `X` is within `x` of the ideal one. -/
structure FB (x : FErr) (X X' : Frame) : Prop where
  rot : rdist X.M X'.M ≤ x.d
  origin : VB x.p X.p X'.p
  proper : X'.M.IsProper

/-- The element `e` stored in the machine is, within `b`, the ideal element `e'` at the given joint values. -/
structure ElemNear (F : FlD) (b : TreeB) (q : List ℝ) (e e' : TreeElem) : Prop where
  name : e.name = e'.name
  parent : e.parent = e'.parent
  q_nr : e.q_nr = e'.q_nr
  moving : e.moving = e'.moving
  pose : ∀ x ∈ q, FB b.s (F.segPose e.segment x) (e'.segment.pose x)
  unit : ∀ x ∈ q, TB b.un (F.segTwist e.segment x 1) (e'.segment.twist x 1)

/-- The same for all elements of two trees of the same shape. -/
structure TreeNear (F : FlD) (b : TreeB) (q : List ℝ) (t t' : Tree) : Prop where
  root : t.root_name = t'.root_name
  joints : t.nrOfJoints = t'.nrOfJoints
  elems : List.Forall₂ (ElemNear F b q) t.segments t'.segments

/-! ## helpers -/

theorem find_pair {F : FlD} {b : TreeB} {q : List ℝ} {l l' : List TreeElem} (h : List.Forall₂ (ElemNear F b q) l l') (n : String) :
    (l'.find? (fun e => e.name == n) = none → l.find? (fun e => e.name == n) = none) ∧
    ∀ e', l'.find? (fun e => e.name == n) = some e' → ∃ e, l.find? (fun e => e.name == n) = some e ∧ ElemNear F b q e e' := by
  induction h with
  | nil => exact ⟨fun _ => rfl, fun e' h => by simp at h⟩
  | @cons x x' l l' h1 h2 ih =>
    simp only [List.find?_cons, h1.name]
    cases hx : x'.name == n with
    | true => exact ⟨fun h => by simp at h, fun e' he => ⟨x, rfl, by simp only [Option.some.injEq] at he; rw [← he]; exact h1⟩⟩
    | false => exact ih

theorem TreeNear.find {F : FlD} {b : TreeB} {q : List ℝ} {t t' : Tree} (h : TreeNear F b q t t') {n : String} {e' : TreeElem}
    (he : t'.find n = some e') : ∃ e, t.find n = some e ∧ ElemNear F b q e e' := (find_pair h.elems n).2 e' he
theorem TreeNear.find_none {F : FlD} {b : TreeB} {q : List ℝ} {t t' : Tree} (h : TreeNear F b q t t') {n : String}
    (he : t'.find n = none) : t.find n = none := (find_pair h.elems n).1 he

theorem rdist_transpose (A B : Rot) : rdist A.inv B.inv = rdist A B := by unfold rdist Rot.inv; dsimp only; congr 1; ring
theorem fro_transpose (A : Rot) : fro A.inv = fro A := by unfold fro Rot.inv; dsimp only; congr 1; ring

theorem fb_one : FB ⟨0, ⟨0, 0⟩⟩ 1 1 :=
  ⟨by simp [rdist], ⟨by simp [vdist], by simp [vlen]⟩, Rot.IsProper.one⟩

section
variable {F : FlD} (hF : F.Ok) {u : ℚ} (hu : F.u ≤ u)
include hF hu

theorem FB.mul {x y : FErr} {A A' B B' : Frame} (h1 : FB x A A') (h2 : FB y B B') : FB (x.mul u y) (F.frameMul A B) (A' * B') := by
  have d1 : (0 : ℝ) ≤ x.d := (rdist_nonneg _ _).trans h1.rot
  have d2 : (0 : ℝ) ≤ y.d := (rdist_nonneg _ _).trans h2.rot
  have g := gq_ge hF hu
  have g0 := Fl.g3_nonneg hF.base
  have s3 : Real.sqrt 3 ≤ 7 / 4 := sqrt3_le.trans (by norm_num)
  refine ⟨?_, VB.add hF hu (VB.map hF hu h1.proper h1.rot h2.origin) h1.origin, h1.proper.mul h2.proper⟩
  have a := rdist_triangle (F.rotMul A.M B.M) (A.M * B.M) (A'.M * B'.M)
  have a2 := rdist_triangle (A.M * B.M) (A.M * B'.M) (A'.M * B'.M)
  rw [rdist_mul_proper h2.proper] at a2
  have a3 := Fl.rotMul_err hF.base A.M B.M
  have a4 := rdist_mul_left A.M B.M B'.M
  have fA : fro A.M ≤ 7 / 4 + x.d := by
    have := fro_le A.M A'.M
    rw [fro_proper h1.proper] at this
    linarith [h1.rot]
  have fB : fro B.M ≤ 7 / 4 + y.d := by
    have := fro_le B.M B'.M
    rw [fro_proper h2.proper] at this
    linarith [h2.rot]
  have a5 : F.g3 * fro A.M * fro B.M ≤ gq u * (7 / 4 + x.d) * (7 / 4 + y.d) := by
    have := fro_nonneg A.M
    have := fro_nonneg B.M
    have : (0 : ℝ) ≤ gq u := g0.trans g
    gcongr
  have a6 : fro A.M * rdist B.M B'.M ≤ (7 / 4 + x.d) * y.d := mul_le_mul fA h2.rot (rdist_nonneg _ _) (by linarith)
  have a7 := h1.rot
  show rdist (F.rotMul A.M B.M) (A'.M * B'.M) ≤ _
  unfold FErr.mul
  push_cast
  linarith

theorem FB.mulL {x y : FErr} {A A' B B' : Frame} (h1 : FB x A A') (h2 : FB y B B') : FB (x.mulL u y) (F.frameMul A B) (A' * B') := by
  have d1 : (0 : ℝ) ≤ x.d := (rdist_nonneg _ _).trans h1.rot
  have d2 : (0 : ℝ) ≤ y.d := (rdist_nonneg _ _).trans h2.rot
  have g := gq_ge hF hu
  have g0 := Fl.g3_nonneg hF.base
  have s3 : Real.sqrt 3 ≤ 7 / 4 := sqrt3_le.trans (by norm_num)
  refine ⟨?_, VB.add hF hu (VB.map hF hu h1.proper h1.rot h2.origin) h1.origin, h1.proper.mul h2.proper⟩
  have a := rdist_triangle (F.rotMul A.M B.M) (A.M * B.M) (A'.M * B'.M)
  have a2 := rdist_triangle (A.M * B.M) (A'.M * B.M) (A'.M * B'.M)
  have a3 := Fl.rotMul_err hF.base A.M B.M
  have e1 : rdist (A'.M * B.M) (A'.M * B'.M) = rdist B.M B'.M := by
    rw [← rdist_transpose, Rot.inv_mul, Rot.inv_mul, rdist_mul_proper h1.proper.inv, rdist_transpose]
  have a4 : rdist (A.M * B.M) (A'.M * B.M) ≤ fro B.M * rdist A.M A'.M := by
    rw [← rdist_transpose, Rot.inv_mul, Rot.inv_mul, ← rdist_transpose A.M, ← fro_transpose]
    exact rdist_mul_left _ _ _
  have fA : fro A.M ≤ 7 / 4 + x.d := by
    have := fro_le A.M A'.M
    rw [fro_proper h1.proper] at this
    linarith [h1.rot]
  have fB : fro B.M ≤ 7 / 4 + y.d := by
    have := fro_le B.M B'.M
    rw [fro_proper h2.proper] at this
    linarith [h2.rot]
  have a5 : F.g3 * fro A.M * fro B.M ≤ gq u * (7 / 4 + x.d) * (7 / 4 + y.d) := by
    have := fro_nonneg A.M
    have := fro_nonneg B.M
    have : (0 : ℝ) ≤ gq u := g0.trans g
    gcongr
  have a6 : fro B.M * rdist A.M A'.M ≤ (7 / 4 + y.d) * x.d := mul_le_mul fB h1.rot (rdist_nonneg _ _) (by linarith)
  have a7 := h2.rot
  show rdist (F.rotMul A.M B.M) (A'.M * B'.M) ≤ _
  unfold FErr.mulL
  push_cast
  linarith

theorem TB.rot {x : TErr} {a a' : Twist} {P X : Rot} {d : ℚ} (hX : X.IsProper) (hP : rdist P X ≤ d) (h : TB x a a') :
    TB (x.inv u d) (F.rotTwist P a) (X * a') := ⟨VB.map hF hu hX hP h.1, VB.map hF hu hX hP h.2⟩
end

section
variable {F : FlD} (hF : F.Ok) {b : TreeB} (hu : F.u ≤ b.u) {q : List ℝ} {t t' : Tree} (ht : t'.Reach) (h0 : 0 < t'.nrOfJoints)
  (hq : q.length = t'.nrOfJoints) (h : TreeNear F b q t t')
include hF hu ht h0 hq h

theorem fk_near {n : String} {l : List TreeElem} (hl : Tree.Path t' n l) : ∀ fuel, l.length < fuel →
    ∃ X X', F.recursiveFk t q fuel n = some X ∧ t'.recursiveFk q fuel n = some X' ∧ FB (b.pose l.length) X X' := by
  induction hl with
  | @root r' hr' =>
    intro fuel hf
    obtain ⟨f, rfl⟩ : ∃ f, fuel = f + 1 := ⟨fuel - 1, by simp at hf; omega⟩
    obtain ⟨r, hr, hn⟩ := h.find hr'
    have hlt : r'.q_nr < q.length := by rw [hq]; exact Tree.q_nr_lt ht h0 (Tree.find_some hr').1
    have hlt2 : r.q_nr < q.length := by rw [hn.q_nr]; exact hlt
    refine ⟨F.segPose r.segment q[r'.q_nr], r'.segment.pose q[r'.q_nr], ?_, ?_, hn.pose _ (List.getElem_mem hlt)⟩
    · simp only [FlD.recursiveFk, hr, h.root, hn.q_nr, List.getElem?_eq_getElem hlt, Option.bind_eq_bind, Option.bind_some, if_true]
    · simp only [Tree.recursiveFk, hr', List.getElem?_eq_getElem hlt, Option.bind_eq_bind, Option.bind_some, if_true]
  | @step n p e' l h1 h2 h3 hp ih =>
    intro fuel hf
    simp only [List.length_append, List.length_singleton] at hf
    obtain ⟨f, rfl⟩ : ∃ f, fuel = f + 1 := ⟨fuel - 1, by omega⟩
    obtain ⟨e, he, hn⟩ := h.find h1
    have hlt : e'.q_nr < q.length := by rw [hq]; exact Tree.q_nr_lt ht h0 (Tree.find_some h1).1
    obtain ⟨X, X', k1, k2, k3⟩ := ih f (by omega)
    refine ⟨F.frameMul X (F.segPose e.segment q[e'.q_nr]), X' * e'.segment.pose q[e'.q_nr], ?_, ?_, ?_⟩
    · have h2' : n ≠ t.root_name := by rw [h.root]; exact h2
      simp only [FlD.recursiveFk, he, hn.q_nr, List.getElem?_eq_getElem hlt, Option.bind_eq_bind, Option.bind_some, if_neg h2', hn.parent, h3, k1]
    · simp only [Tree.recursiveFk, h1, List.getElem?_eq_getElem hlt, Option.bind_eq_bind, Option.bind_some, if_neg h2, h3, k2]
    · rw [List.length_append, List.length_singleton]
      exact FB.mul hF hu k3 (hn.pose _ (List.getElem_mem hlt))

theorem jac_near {n : String} {l : List TreeElem} (hl : Tree.Path t' n l) : ∀ (fuel k : ℕ) (T T' : Frame) (J J' : Jac), l.length < fuel →
    J.length = t'.nrOfJoints → J'.length = t'.nrOfJoints → FB (b.T k) T T' →
    ∃ T1 T1' J1 J1', F.treeJacLoop t q fuel n T J = some (T1, J1) ∧ t'.treeJacLoop q fuel n T' J' = some (T1', J1') ∧
      J1.length = t'.nrOfJoints ∧ J1'.length = t'.nrOfJoints ∧ FB (b.T (k + l.length)) T1 T1' ∧
      ∀ i, (∃ m e, l.reverse[m]? = some e ∧ e.moving = true ∧ e.q_nr = i ∧ TB (b.col (k + m)) (J1.getD i 0) (J1'.getD i 0)) ∨
        J1.getD i 0 = J.getD i 0 ∧ J1'.getD i 0 = J'.getD i 0 := by
  induction hl with
  | @root r' hr' =>
    intro fuel k T T' J J' hf hJ hJ' hT
    obtain ⟨f, rfl⟩ : ∃ f, fuel = f + 1 := ⟨fuel - 1, by simp at hf; omega⟩
    exact ⟨T, T', J, J', by simp [FlD.treeJacLoop, h.root], by simp [Tree.treeJacLoop], hJ, hJ', by simpa using hT, fun i => .inr ⟨rfl, rfl⟩⟩
  | @step n p e' l h1 h2 h3 hp ih =>
    intro fuel k T T' J J' hf hJ hJ' hT
    simp only [List.length_append, List.length_singleton] at hf
    obtain ⟨f, rfl⟩ : ∃ f, fuel = f + 1 := ⟨fuel - 1, by omega⟩
    obtain ⟨e, he, hn⟩ := h.find h1
    have hlt' := Tree.q_nr_lt ht h0 (Tree.find_some h1).1
    have hlt : e'.q_nr < q.length := by rw [hq]; exact hlt'
    obtain ⟨x, hx⟩ : ∃ x, x = q[e'.q_nr] := ⟨_, rfl⟩
    have hxq : x ∈ q := by rw [hx]; exact List.getElem_mem hlt
    have hqx : q[e'.q_nr]? = some x := by rw [hx]; exact List.getElem?_eq_getElem hlt
    have hS := hn.pose x hxq
    have hT1 : FB (b.T (k + 1)) (F.frameMul (F.segPose e.segment x) T) (e'.segment.pose x * T') := FB.mulL hF hu hS hT
    obtain ⟨A, hA⟩ : ∃ A, A = F.frameMul (F.segPose e.segment x) T := ⟨_, rfl⟩
    obtain ⟨A', hA'⟩ : ∃ A', A' = e'.segment.pose x * T' := ⟨_, rfl⟩
    rw [← hA, ← hA'] at hT1
    obtain ⟨c, hc⟩ : ∃ c, c = F.rotInvTwist A.M (F.refPoint (F.segTwist e.segment x 1) (F.vecSub A.p (F.segPose e.segment x).p)) := ⟨_, rfl⟩
    obtain ⟨c', hc'⟩ : ∃ c', c' = A'.M.inv * (e'.segment.twist x 1).refPoint (A'.p - (e'.segment.pose x).p) := ⟨_, rfl⟩
    have hcol : TB (b.col k) c c' := by
      have hun := hn.unit x hxq
      have r : TB ⟨b.un.a.add b.u (b.un.b.cross b.u ((b.T (k + 1)).p.add b.u b.s.p)), b.un.b⟩
          (F.refPoint (F.segTwist e.segment x 1) (F.vecSub A.p (F.segPose e.segment x).p))
          ((e'.segment.twist x 1).refPoint (A'.p - (e'.segment.pose x).p)) :=
        ⟨VB.add hF hu hun.1 (VB.cross hF hu hun.2 (VB.sub hF hu hT1.origin hS.origin)), hun.2⟩
      rw [hc, hc']
      exact TB.inv hF hu hT1.proper hT1.rot r
    have h2' : n ≠ t.root_name := by rw [h.root]; exact h2
    have e1 : F.treeJacLoop t q (f + 1) n T J =
        (if e'.moving then J.setColumn e'.q_nr c else some J).bind fun J2 => F.treeJacLoop t q f p A J2 := by
      simp only [FlD.treeJacLoop, if_neg h2', he, hn.q_nr, hqx, Option.bind_eq_bind, Option.bind_some, hn.moving, hn.parent, h3, hc, hA]
      split_ifs <;> rfl
    have e2 : t'.treeJacLoop q (f + 1) n T' J' =
        (if e'.moving then J'.setColumn e'.q_nr c' else some J').bind fun J2 => t'.treeJacLoop q f p A' J2 := by
      simp only [Tree.treeJacLoop, if_neg h2, h1, hqx, Option.bind_eq_bind, Option.bind_some, h3, hc', hA']
      split_ifs <;> rfl
    have hrev : (l ++ [e']).reverse = e' :: l.reverse := by simp
    have hlen : k + (l ++ [e']).length = k + 1 + l.length := by simp; omega
    rw [e1, e2, hrev, hlen]
    by_cases hm : e'.moving = true
    · rw [if_pos hm, if_pos hm, Jac.setColumn, Jac.setColumn, if_pos (by omega), if_pos (by omega)]
      simp only [Option.bind_some]
      obtain ⟨T1, T1', J1, J1', k1, k2, k3, k4, k5, k6⟩ := ih f (k + 1) A A' (J.set e'.q_nr c) (J'.set e'.q_nr c') (by omega)
        (by simpa using hJ) (by simpa using hJ') hT1
      refine ⟨T1, T1', J1, J1', k1, k2, k3, k4, k5, fun i => ?_⟩
      rcases k6 i with ⟨m, x, g1, g2, g3, g4⟩ | ⟨g1, g2⟩
      · exact .inl ⟨m + 1, x, by simpa using g1, g2, g3, by rw [show k + (m + 1) = k + 1 + m by omega]; exact g4⟩
      · by_cases hi : e'.q_nr = i
        · refine .inl ⟨0, e', by simp, hm, hi, ?_⟩
          rw [g1, g2, ← hi]
          have a1 : e'.q_nr < J.length := by omega
          have a2 : e'.q_nr < J'.length := by omega
          simp only [List.getD_eq_getElem?_getD, List.getElem?_set, if_true, a1, a2, Option.getD_some]
          exact hcol
        · refine .inr ⟨?_, ?_⟩
          · rw [g1]; simp only [List.getD_eq_getElem?_getD, List.getElem?_set, if_neg hi]
          · rw [g2]; simp only [List.getD_eq_getElem?_getD, List.getElem?_set, if_neg hi]
    · rw [if_neg hm, if_neg hm]
      simp only [Option.bind_some]
      obtain ⟨T1, T1', J1, J1', k1, k2, k3, k4, k5, k6⟩ := ih f (k + 1) A A' J J' (by omega) hJ hJ' hT1
      refine ⟨T1, T1', J1, J1', k1, k2, k3, k4, k5, fun i => ?_⟩
      rcases k6 i with ⟨m, x, g1, g2, g3, g4⟩ | g
      · exact .inl ⟨m + 1, x, by simpa using g1, g2, g3, by rw [show k + (m + 1) = k + 1 + m by omega]; exact g4⟩
      · exact .inr g
end

/-! ## C110 -/

/-- Position: the codes are those of the ideal tree, and the pose of a segment with `l.length` segments between the root and itself is
within the bound of that depth. -/
theorem C110_position (F : FlD) (hF : F.Ok) (b : TreeB) (hu : F.u ≤ b.u) (q : List ℝ) (t t' : Tree) (ht : t'.Reach) (h0 : 0 < t'.nrOfJoints)
    (h : TreeNear F b q t t') (n : String) :
    (q.length ≠ t'.nrOfJoints → F.fkTree t q n = some (-1, none) ∧ t'.fkTree q n = some (-1, none)) ∧
    (q.length = t'.nrOfJoints → n ∉ t'.names → F.fkTree t q n = some (-2, none) ∧ t'.fkTree q n = some (-2, none)) ∧
    (q.length = t'.nrOfJoints → ∀ l, Tree.Path t' n l → ∃ X X', F.fkTree t q n = some (0, some X) ∧ t'.fkTree q n = some (0, some X') ∧
      rdist X.M X'.M ≤ (b.pose l.length).d ∧ vdist X.p X'.p ≤ (b.pose l.length).p.e) := by
  refine ⟨fun hq => ?_, fun hq hn => ?_, fun hq l hl => ?_⟩
  · exact ⟨by simp [FlD.fkTree, h.joints, hq], by simp [Tree.fkTree, hq]⟩
  · have hn' := Tree.find_none.mpr hn
    exact ⟨by simp [FlD.fkTree, h.joints, hq, h.find_none hn'], by simp [Tree.fkTree, hq, hn']⟩
  · obtain ⟨e', he'⟩ := hl.found
    obtain ⟨e, he, _⟩ := h.find he'
    have hlen : l.length < t'.segments.length := by
      obtain ⟨l', hl', hlen⟩ := Tree.path_of_mem ht.wf (Tree.mem_names.mpr hl.found)
      rw [hl.unique hl']; exact hlen
    obtain ⟨X, X', k1, k2, k3⟩ := fk_near hF hu ht h0 hq h hl (t'.segments.length + 1) (by omega)
    refine ⟨X, X', ?_, ?_, k3.rot, k3.origin.1⟩
    · simp only [FlD.fkTree, h.joints, hq, ne_eq, not_true_eq_false, if_false, he, h.elems.length_eq, k1, Option.map_some]
    · simp only [Tree.fkTree, hq, ne_eq, not_true_eq_false, if_false, he', k2, Option.map_some]

/-- Jacobian: the column of a joint off the path is exactly zero, that of the `k`-th element from the end of the path is within the bound
of that place. -/
theorem C110_jacobian (F : FlD) (hF : F.Ok) (b : TreeB) (hu : F.u ≤ b.u) (q : List ℝ) (t t' : Tree) (ht : t'.Reach) (h0 : 0 < t'.nrOfJoints)
    (h : TreeNear F b q t t') (n : String) (jac : Jac) :
    (q.length ≠ t'.nrOfJoints ∨ jac.length ≠ t'.nrOfJoints → F.jacTree t q jac n = some (-1, jac) ∧ t'.jacTree q jac n = some (-1, jac)) ∧
    (q.length = t'.nrOfJoints → jac.length = t'.nrOfJoints → n ∉ t'.names →
      F.jacTree t q jac n = some (-2, jac) ∧ t'.jacTree q jac n = some (-2, jac)) ∧
    (q.length = t'.nrOfJoints → jac.length = t'.nrOfJoints → ∀ l, Tree.Path t' n l → ∃ J J', F.jacTree t q jac n = some (0, J) ∧
      t'.jacTree q jac n = some (0, J') ∧ J.length = t'.nrOfJoints ∧ J'.length = t'.nrOfJoints ∧
      ∀ i, (∃ k e, l.reverse[k]? = some e ∧ e.moving = true ∧ e.q_nr = i ∧
          vdist (J.getD i 0).vel (J'.getD i 0).vel ≤ (b.column l.length k).a.e ∧
          vdist (J.getD i 0).rot (J'.getD i 0).rot ≤ (b.column l.length k).b.e) ∨
        J.getD i 0 = 0 ∧ J'.getD i 0 = 0) := by
  refine ⟨fun hq => ?_, fun hq hj hn => ?_, fun hq hj l hl => ?_⟩
  · exact ⟨by simp only [FlD.jacTree, h.joints]; rw [if_pos hq], by simp only [Tree.jacTree]; rw [if_pos hq]⟩
  · have hn' := Tree.find_none.mpr hn
    exact ⟨by simp [FlD.jacTree, h.joints, hq, hj, h.find_none hn'], by simp [Tree.jacTree, hq, hj, hn']⟩
  · obtain ⟨e', he'⟩ := hl.found
    obtain ⟨e, he, _⟩ := h.find he'
    have hlen : l.length < t'.segments.length := by
      obtain ⟨l', hl', hlen⟩ := Tree.path_of_mem ht.wf (Tree.mem_names.mpr hl.found)
      rw [hl.unique hl']; exact hlen
    have hz : jac.setToZero.length = t'.nrOfJoints := by rw [← hj]; simp [Jac.setToZero]
    have hzero : ∀ i, jac.setToZero.getD i 0 = 0 := by
      intro i
      simp only [Jac.setToZero, List.getD_eq_getElem?_getD, List.getElem?_map]
      cases jac[i]? <;> rfl
    obtain ⟨T, T', J, J', k1, k2, k3, k4, k5, k6⟩ := jac_near hF hu ht h0 hq h hl (t'.segments.length + 1) 0 1 1 jac.setToZero jac.setToZero
      (by omega) hz hz fb_one
    have hget : ∀ (f : Twist → Twist) (K : Jac) (i : ℕ), f 0 = 0 → (K.map f).getD i 0 = f (K.getD i 0) := by
      intro f K i hf
      simp only [List.getD_eq_getElem?_getD, List.getElem?_map]
      cases K[i]? with
      | none => simp [hf]
      | some c => rfl
    have r0 : F.rnd 0 = 0 := by
      have := hF.base.rnd 0
      simpa using this
    have f0 : F.rotTwist T.M 0 = 0 := by
      have : F.rotVec T.M 0 = 0 := by
        simp only [Fl.rotVec, Fl.dot3, Vec.zero_x, Vec.zero_y, Vec.zero_z, mul_zero, r0, add_zero]
        rfl
      show (⟨F.rotVec T.M 0, F.rotVec T.M 0⟩ : Twist) = 0
      rw [this]
      rfl
    have f0' : T'.M * (0 : Twist) = 0 := by ext <;> simp
    refine ⟨F.changeBase J T.M, J'.changeBase T'.M, ?_, ?_, by simp [FlD.changeBase, k3], by simp [Jac.changeBase, k4], fun i => ?_⟩
    · simp only [FlD.jacTree, h.joints, hq, hj, ne_eq, not_true_eq_false, or_self, if_false, he, h.elems.length_eq, k1, Option.bind_eq_bind,
        Option.bind_some]
    · simp only [Tree.jacTree, hq, hj, ne_eq, not_true_eq_false, or_self, if_false, he', k2, Option.bind_eq_bind, Option.bind_some]
    · rw [FlD.changeBase, Jac.changeBase, hget _ J i f0, hget _ J' i f0']
      rcases k6 i with ⟨k, x, g1, g2, g3, g4⟩ | ⟨g1, g2⟩
      · rw [Nat.zero_add] at g4 k5
        have g5 := TB.rot hF hu k5.proper k5.rot g4
        exact .inl ⟨k, x, g1, g2, g3, g5.1.1, g5.2.1⟩
      · rw [g1, g2, hzero, f0, f0']
        exact .inr ⟨rfl, rfl⟩

/-- Exact arithmetic is the program over the reals. -/
theorem C110_exact (u : ℝ) (t : Tree) (q : List ℝ) (n : String) (jac : Jac) :
    (FlD.mk ⟨u, id, Real.sin, Real.cos⟩ fun I v => I * v).fkTree t q n = t.fkTree q n ∧
    (FlD.mk ⟨u, id, Real.sin, Real.cos⟩ fun I v => I * v).jacTree t q jac n = t.jacTree q jac n := by
  obtain ⟨F, hF⟩ : ∃ F, F = FlD.mk ⟨u, id, Real.sin, Real.cos⟩ (fun I v => I * v) := ⟨_, rfl⟩
  rw [← hF]
  have hj : ∀ (j : Joint) (x : ℝ), F.jointPose j x = j.pose x := by
    intro j x
    rw [hF]
    unfold Fl.jointPose Joint.pose
    cases j.type <;> first | rfl | skip
    all_goals
      simp only [Frame.ofVec, Fl.vecAdd, Fl.vecScale, Fl.arg, id]
      ext <;> simp <;> ring
  have hs : ∀ (s : Segment) (x : ℝ), F.segPose s x = s.pose x := by
    intro s x
    show F.frameMul _ _ = _
    rw [hj, hF]
    rfl
  have hjt : ∀ (j : Joint) (x : ℝ), F.jointTwist j x = j.twist x := by
    intro j x
    rw [hF]
    unfold Fl.jointTwist Joint.twist
    cases j.type <;> first | rfl | skip
    all_goals
      simp only [Fl.vecScale, id]
      ext <;> simp <;> ring
  have ht : ∀ (s : Segment) (x y : ℝ), F.segTwist s x y = s.twist x y := by
    intro s x y
    show F.refPoint _ _ = _
    rw [hj, hjt, hF]
    rfl
  have o1 : ∀ (R : Rot) (t : Twist), F.rotInvTwist R t = R.inv * t := fun R t => by rw [hF]; rfl
  have o2 : ∀ a b : Frame, F.frameMul a b = a * b := fun a b => by rw [hF]; rfl
  have o3 : ∀ (a : Twist) (v : Vec), F.refPoint a v = a.refPoint v := fun a v => by rw [hF]; rfl
  have o4 : ∀ a b : Vec, F.vecSub a b = a - b := fun a b => by rw [hF]; rfl
  have o5 : ∀ (R : Rot) (t : Twist), F.rotTwist R t = R * t := fun R t => by rw [hF]; rfl
  have r1 : ∀ (fuel : ℕ) (n : String), F.recursiveFk t q fuel n = t.recursiveFk q fuel n := by
    intro fuel
    induction fuel with
    | zero => intro n; rfl
    | succ f ih => intro n; simp only [FlD.recursiveFk, Tree.recursiveFk, hs, o2, ih]
  have r2 : ∀ (fuel : ℕ) (n : String) (T : Frame) (J : Jac), F.treeJacLoop t q fuel n T J = t.treeJacLoop q fuel n T J := by
    intro fuel
    induction fuel with
    | zero => intro n T J; rfl
    | succ f ih => intro n T J; simp only [FlD.treeJacLoop, Tree.treeJacLoop, hs, ht, o1, o2, o3, o4, ih]
  refine ⟨?_, ?_⟩
  · unfold FlD.fkTree Tree.fkTree
    simp only [r1]
    cases t.find n <;> rfl
  · unfold FlD.jacTree Tree.jacTree FlD.changeBase Jac.changeBase
    simp only [r2, o5]
    cases t.find n <;> rfl

/-! ## double precision -/

/-- The numbers of `C110_double`. -/
def dblT : TreeB := ⟨1 / 2 ^ 53, ⟨3 / 10 ^ 13, ⟨1 / 10 ^ 11, 60⟩⟩, ⟨⟨1 / 10 ^ 11, 31⟩, ⟨3 / 10 ^ 14, 1⟩⟩⟩

theorem dblT_pose : ∀ N < 11, (dblT.pose N).d ≤ 6 / 10 ^ 12 ∧ (dblT.pose N).p.e ≤ 2 / 10 ^ 9 := by decide +kernel
theorem dblT_column : ∀ N < 11, ∀ k < N, (dblT.column N k).a.e ≤ 1 / 10 ^ 8 ∧ (dblT.column N k).b.e ≤ 2 / 10 ^ 11 := by decide +kernel

/-- An element as stored and the ideal one: the same place in the tree, geometry as in `SegClose`, scale of the joint at most 1. -/
structure ElemClose (q : List ℝ) (e e' : TreeElem) : Prop where
  name : e.name = e'.name
  parent : e.parent = e'.parent
  q_nr : e.q_nr = e'.q_nr
  close : SegClose q e.segment e'.segment
  scale : |e.segment.joint.scale| ≤ 1

/-- The same for trees. -/
structure TreeClose (q : List ℝ) (t t' : Tree) : Prop where
  root : t.root_name = t'.root_name
  joints : t.nrOfJoints = t'.nrOfJoints
  elems : List.Forall₂ (ElemClose q) t.segments t'.segments

theorem TreeClose.near {F : FlD} (hF : F.Ok) (hu : F.u = 1 / 2 ^ 53) {q : List ℝ} {t t' : Tree} (h : TreeClose q t t') :
    TreeNear F dblT q t t' := by
  refine ⟨h.root, h.joints, h.elems.imp fun e e' he => ?_⟩
  obtain ⟨p1, p2, p3⟩ := segClose_pose hF.base hu he.close
  have r := segClose_rate hF.base hu he.close (qd := [1]) (fun y hy => by
    rw [List.mem_singleton] at hy
    rw [hy, mul_one]
    exact he.scale)
  refine ⟨he.name, he.parent, he.q_nr, p1, fun x hx => ?_, fun x hx => ?_⟩
  · obtain ⟨⟨a1, a2⟩, a3⟩ := p3 x (.inl hx)
    refine ⟨?_, ⟨?_, ?_⟩, Segment.isProper_pose p2 x⟩ <;> simp only [dblT] <;> push_cast <;> assumption
  · obtain ⟨⟨a1, a2⟩, a3, a4⟩ := r x 1 (.inl ⟨hx, by simp⟩)
    refine ⟨⟨?_, ?_⟩, ⟨?_, ?_⟩⟩ <;> simp only [dblT] <;> push_cast <;> assumption

/-- In double precision, for a segment at most ten segments from the root in a tree within the ranges of `ElemClose`: the pose returned is
within `6e-12` (rotation, Frobenius norm) and `2e-9` (origin) of that of the ideal tree, and the columns of the Jacobian within `1e-8`
(velocity) and `2e-11` (angular velocity). -/
theorem C110_double (F : FlD) (hF : F.Ok) (hu : F.u = 1 / 2 ^ 53) (q : List ℝ) (t t' : Tree) (ht : t'.Reach) (h0 : 0 < t'.nrOfJoints)
    (h : TreeClose q t t') (n : String) (jac : Jac) (hq : q.length = t'.nrOfJoints) (hj : jac.length = t'.nrOfJoints)
    (l : List TreeElem) (hl : Tree.Path t' n l) (hn : l.length ≤ 10) :
    ∃ X X' J J', F.fkTree t q n = some (0, some X) ∧ t'.fkTree q n = some (0, some X') ∧
      F.jacTree t q jac n = some (0, J) ∧ t'.jacTree q jac n = some (0, J') ∧
      rdist X.M X'.M ≤ 6 / 10 ^ 12 ∧ vdist X.p X'.p ≤ 2 / 10 ^ 9 ∧ J.length = t'.nrOfJoints ∧ J'.length = t'.nrOfJoints ∧
      ∀ i, vdist (J.getD i 0).vel (J'.getD i 0).vel ≤ 1 / 10 ^ 8 ∧ vdist (J.getD i 0).rot (J'.getD i 0).rot ≤ 2 / 10 ^ 11 := by
  have hN := h.near hF hu
  have hu' : F.u ≤ dblT.u := by rw [hu]; simp [dblT]
  obtain ⟨X, X', k1, k2, k3, k4⟩ := (C110_position F hF dblT hu' q t t' ht h0 hN n).2.2 hq l hl
  obtain ⟨J, J', g1, g2, g3, g4, g5⟩ := (C110_jacobian F hF dblT hu' q t t' ht h0 hN n jac).2.2 hq hj l hl
  obtain ⟨p1, p2⟩ := dblT_pose l.length (by omega)
  have c : ∀ {a : ℚ} {x y : ℝ} {m : ℚ}, a ≤ m → x ≤ a → (m : ℝ) = y → x ≤ y := fun h1 h2 h3 =>
    h2.trans (by rw [← h3]; exact_mod_cast h1)
  refine ⟨X, X', J, J', k1, k2, g1, g2, c p1 k3 (by push_cast; rfl), c p2 k4 (by push_cast; rfl), g3, g4, fun i => ?_⟩
  rcases g5 i with ⟨k, e, e1, -, -, e2, e3⟩ | ⟨e1, e2⟩
  · have hk : k < l.length := by
      by_contra hk
      rw [List.getElem?_eq_none (by simp; omega)] at e1
      simp at e1
    obtain ⟨q1, q2⟩ := dblT_column l.length (by omega) k hk
    exact ⟨c q1 e2 (by push_cast; rfl), c q2 e3 (by push_cast; rfl)⟩
  · rw [e1, e2, vdist_self, vdist_self]
    exact ⟨by norm_num, by norm_num⟩

/-- Non-vacuity: a machine that rounds every number up and a tree of one moving segment whose stored tip differs from the ideal one meet
the assumptions of `C110_double`, and with `dblT` those of the other theorems. -/
example : ∃ (F : FlD) (q : List ℝ) (t t' : Tree) (jac : Jac) (l : List TreeElem), F.Ok ∧ F.u = 1 / 2 ^ 53 ∧ t'.Reach ∧ 0 < t'.nrOfJoints ∧
    TreeClose q t t' ∧ TreeNear F dblT q t t' ∧ t ≠ t' ∧ q.length = t'.nrOfJoints ∧ jac.length = t'.nrOfJoints ∧ Tree.Path t' "a" l ∧
    l.length ≤ 10 ∧ l ≠ [] := by
  obtain ⟨j, hj⟩ : ∃ j : Joint, j = ⟨"", .RotAxis, 1, 0, 1, 0, 0, ⟨3 / 5, 4 / 5, 0⟩, ⟨1, 2, 3⟩⟩ := ⟨_, rfl⟩
  obtain ⟨s', hs'⟩ : ∃ s : Segment, s = ⟨"a", j, RBI.zero, ⟨1, ⟨1, 0, 0⟩⟩⟩ := ⟨_, rfl⟩
  obtain ⟨s, hs⟩ : ∃ s : Segment, s = ⟨"a", j, RBI.zero, ⟨1, ⟨1 + 1 / 10 ^ 15, 0, 0⟩⟩⟩ := ⟨_, rfl⟩
  have vj : j.Valid := fun _ => by rw [hj]; simp [Vec.dot]; norm_num
  have hcl : SegClose [(0 : ℝ)] s s' := by
    refine ⟨by rw [hs, hs'], by rw [hs, hs'], by rw [hs, hs'], by rw [hs, hs'], ?_, fun _ => by simp [hs, hs']; norm_num, ?_, ?_, ⟨?_, ?_⟩, ?_⟩
    · rw [hs']; exact ⟨vj, Rot.IsProper.one⟩
    · intro x hx
      have : x = 0 := by simpa using hx
      rw [this, hs, hj]
      norm_num
    · simp [hs, hj]; norm_num
    · simp [rdist, hs, hs']
    · refine vdist_le (e := 1 / (2 * 10 ^ 14)) ⟨?_, ?_, ?_⟩ |>.trans (by norm_num) <;> simp [hs, hs'] <;> norm_num
    · exact vlen_le_sum (a := 1) (b := 0) (c := 0) (by simp [hs']) (by simp [hs']) (by simp [hs']) (by norm_num) (by norm_num)
  have hr : SegClose [(0 : ℝ)] (Segment.ofName "r") (Segment.ofName "r") := by
    refine ⟨rfl, rfl, rfl, rfl, ⟨fun h => by simp [Segment.ofName] at h, Frame.IsProper.one⟩, fun _ => by norm_num, ?_, ?_, ⟨?_, ?_⟩, ?_⟩
    · intro x hx
      have : x = 0 := by simpa using hx
      rw [this]
      norm_num [Segment.ofName]
    · simp [Segment.ofName]
    · simp [rdist]
    · rw [vdist_self]; norm_num
    · simp [Segment.ofName, vlen]
  have hm : s'.moving = true := by rw [hs']; simp [Segment.moving, Joint.moving, hj]
  have ha : s'.name = "a" := by rw [hs']
  obtain ⟨t', ht'⟩ : ∃ t : Tree, t = ((Tree.new "r").addSegment s' "r").2 := ⟨_, rfl⟩
  have e' : t' = ⟨[⟨Segment.ofName "r", 0, none, ["a"]⟩, ⟨s', 0, some "r", []⟩], 1, 1, "r"⟩ := by
    rw [ht']
    simp [Tree.addSegment, Tree.new, Tree.find, Tree.attach, TreeElem.name, Segment.ofName, ha, hm]
  have hcT : TreeClose [0] ⟨[⟨Segment.ofName "r", 0, none, ["a"]⟩, ⟨s, 0, some "r", []⟩], 1, 1, "r"⟩ t' := by
    rw [e']
    refine ⟨rfl, rfl, .cons ⟨rfl, rfl, rfl, hr, by norm_num [Segment.ofName]⟩ (.cons ⟨?_, rfl, rfl, hcl, ?_⟩ .nil)⟩
    · simp [TreeElem.name, hs, hs']
    · simp [hs, hj]
  refine ⟨⟨sloppy, fun I v => sloppy.rotVec (asRot I) v⟩, [0], _, t', [0], [⟨s', 0, some "r", []⟩], C109_matvec _ sloppy_ok, rfl,
    ?_, ?_, hcT, hcT.near (C109_matvec _ sloppy_ok) rfl, ?_, ?_, ?_, ?_, by simp, by simp⟩
  · rw [ht']; exact .add _ _ (.new _)
  · rw [e']; norm_num
  · rw [e']
    intro h
    have h1 := congrArg Tree.segments h
    have h2 : s = s' := by simpa using h1
    have h3 : s.f_tip.p.x = s'.f_tip.p.x := by rw [h2]
    rw [hs, hs'] at h3
    norm_num at h3
  · rw [e']; rfl
  · rw [e']; rfl
  · have f1 : t'.find "a" = some ⟨s', 0, some "r", []⟩ := by rw [e']; simp [Tree.find, TreeElem.name, Segment.ofName, ha]
    have f2 : t'.find t'.root_name = some ⟨Segment.ofName "r", 0, none, ["a"]⟩ := by rw [e']; simp [Tree.find, TreeElem.name, Segment.ofName]
    have f3 : t'.root_name = "r" := by rw [e']
    exact .step (l := []) f1 (by rw [f3]; decide) rfl (f3 ▸ .root f2)

end
end KDL
