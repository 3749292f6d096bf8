import Verif.Lemmas.TreeKin
import Verif.Props.TreeNumbering
import Verif.Props.ForwardKinematics

/-! C33–C35: chains extracted from trees, forward kinematics and Jacobian of trees. -/

noncomputable section
namespace KDL
namespace Tree

/-- Specification: the frame of segment `n` is the ordered product of the segment poses on the way from the root,
`Path t n l` being the list of elements on that way (without the root, whose pose is the identity). -/
theorem C34_path (t : Tree) (h : t.Reach) (n : String) :
    (n ∈ t.names ↔ ∃ l, Path t n l) ∧ ∀ l m, Path t n l → Path t n m → l = m := by
  refine ⟨⟨fun hn => ?_, ?_⟩, fun l m => Path.unique⟩
  · obtain ⟨l, hl, _⟩ := path_of_mem h.wf hn
    exact ⟨l, hl⟩
  · rintro ⟨l, hl⟩; exact mem_names.mpr hl.found

/-! ## C33: `getChain` -/

/-- Unknown names: `false` and an empty chain. -/
theorem C33_unknown (t : Tree) (h : t.Reach) (r e : String) (hn : r ∉ t.names ∨ e ∉ t.names) :
    t.getChain r e = some (false, Chain.empty) := by
  unfold getChain
  by_cases hr : r ∈ t.names
  · obtain ⟨l, hl, hlen⟩ := path_of_mem h.wf hr
    have he : e ∉ t.names := by tauto
    rw [walkUp_eq hl _ (by omega), walkUp_none he]
    simp
  · rw [walkUp_none hr]
    simp

/-- Shape of the extracted chain: the way up to the meeting point reversed, then the way down; the meeting point is the
last common segment of the two paths.  Each reversed segment carries the name of the segment it leads to. -/
theorem C33_shape (t : Tree) (h : t.Reach) (r e : String) (A B : List TreeElem) (hA : Path t r A) (hB : Path t e B)
    (hmade : ∀ x ∈ A, x ∉ B → x.segment.joint.Made ∧ x.segment.f_tip.IsProper ∧
      (x.moving → x.segment.joint.scale = 1)) :
    ∃ C A' B' c rs, A = C ++ A' ∧ B = C ++ B' ∧ (∀ a b, A'.head? = some a → B'.head? = some b → a ≠ b) ∧
      t.getChain r e = some (true, c) ∧ c.WF ∧ c.segments = rs ++ B'.map TreeElem.segment ∧
      List.Forall₂ Item.Real (A'.reverse.map TreeElem.rev) rs ∧
      rs.map Segment.name = (A'.reverse.map TreeElem.name ++ [(C.map TreeElem.name).getLast?.getD t.root_name]).tail := by
  have hw := h.wf
  obtain ⟨C, A', B', h1, h2, h3, h4⟩ := stripCommon_eq hw.nodup A B t.root_name hA.mem hB.mem
  have hlenA : A.length < t.segments.length := by
    obtain ⟨l, hl, hlen⟩ := path_of_mem hw (mem_names.mpr hA.found)
    rw [hA.unique hl]; exact hlen
  have hlenB : B.length < t.segments.length := by
    obtain ⟨l, hl, hlen⟩ := path_of_mem hw (mem_names.mpr hB.found)
    rw [hB.unique hl]; exact hlen
  obtain ⟨r0, rest, _, _, hroot, _⟩ := root_cons hw
  have hlast : ∃ x, t.find ((C.map TreeElem.name).getLast?.getD t.root_name) = some x := by
    cases hC : (C.map TreeElem.name).getLast? with
    | none => exact ⟨r0, hroot⟩
    | some y =>
      have hy := List.mem_of_getLast? hC
      obtain ⟨x, hx, rfl⟩ := List.mem_map.mp hy
      exact ⟨x, find_of_mem hw.nodup (hA.mem x (by rw [h1]; simp [hx]))⟩
  -- elements of A' are not on B
  have hdisj : ∀ x ∈ A', x ∉ B := by
    -- paths are determined by their ends: if x is on both, everything before x coincides
    have hpre : ∀ {n : String} {l : List TreeElem}, Path t n l → ∀ (x : TreeElem) (a b : List TreeElem),
        l = a ++ x :: b → Path t x.name (a ++ [x]) := by
      intro n l hl
      induction hl with
      | root => intro x a b hab; simp at hab
      | @step n p y l k1 k2 k3 k4 ih =>
        intro x a b hab
        rcases List.eq_nil_or_concat b with rfl | ⟨b', z, rfl⟩
        · have := List.append_inj' (s₁ := l) (t₁ := [y]) (s₂ := a) (t₂ := [x]) hab rfl
          obtain ⟨rfl, h6⟩ := this
          cases h6
          rw [(find_some k1).2]
          exact .step k1 k2 k3 k4
        · have : l ++ [y] = (a ++ x :: b') ++ [z] := by rw [hab]; simp
          exact ih x a b' (List.append_inj' this rfl).1
    intro x hx hxB
    obtain ⟨a, b, hab⟩ := List.append_of_mem hx
    obtain ⟨a2, b2, hab2⟩ := List.append_of_mem hxB
    have p1 := hpre hA x (C ++ a) b (by rw [h1, hab]; simp)
    have p2 := hpre hB x a2 b2 hab2
    have heq := p1.unique p2
    have heq2 : C ++ a = a2 := by
      have := List.append_inj' heq rfl
      exact this.1
    -- B = C ++ a ++ x :: b2, A = C ++ a ++ x :: b, so A' and B' have the same head
    have hB' : B' = a ++ x :: b2 := by
      have : C ++ B' = C ++ (a ++ x :: b2) := by rw [← h2, hab2, ← heq2]; simp
      exact List.append_cancel_left this
    cases a with
    | nil => exact h3 x x (by rw [hab]; rfl) (by rw [hB']; rfl) rfl
    | cons y a => exact h3 y y (by rw [hab]; rfl) (by rw [hB']; rfl) rfl
  obtain ⟨c1, rs, j1, j2, j3, j4, j5⟩ := addReversed_eq (t := t) A'.reverse
    ((C.map TreeElem.name).getLast?.getD t.root_name) Chain.empty ⟨rfl, rfl⟩
    (by
      intro x hx
      rw [List.mem_reverse] at hx
      have hxA : x ∈ A := by rw [h1]; simp [hx]
      obtain ⟨m1, m2, m3⟩ := hmade x hxA (hdisj x hx)
      exact ⟨find_of_mem hw.nodup (hA.mem x hxA), m1, m2, m3⟩) hlast
  obtain ⟨c, i1, i2, i3⟩ := addForward_eq (t := t) B' c1 j3
    (fun x hx => find_of_mem hw.nodup (hB.mem x (by rw [h2]; simp [hx])))
  refine ⟨C, A', B', c, rs, h1, h2, h3, ?_, i3, ?_, j4, j5⟩
  · unfold getChain
    rw [walkUp_eq hA _ (by omega), walkUp_eq hB _ (by omega)]
    simp only [Option.bind_eq_bind, Option.bind_some, List.head?_cons, ne_eq, not_true_eq_false, if_false]
    have hs : stripCommon (t.root_name :: A.map TreeElem.name) (t.root_name :: B.map TreeElem.name) t.root_name =
        (A'.map TreeElem.name, B'.map TreeElem.name, (C.map TreeElem.name).getLast?.getD t.root_name) := by
      rw [stripCommon, if_pos rfl, h4]
    rw [hs]
    simp only
    rw [← List.map_reverse, j1]
    simp only [Option.bind_some]
    rw [i1]
    rfl
  · rw [i2, j2]; rfl

/-- The extracted chain moves like the tree: for every joint vector `q` of the tree, the chain's forward kinematics with
the corresponding joint values (those of the reversed part first, in order of the walk) is the pose of the end segment
seen from the start segment.  PARTIAL: every moving joint on the reversed part must have scale 1 (see
`C33_reversed_scale_violated`). -/
theorem C33_kinematics_partial (t : Tree) (h : t.Reach) (hv : ∀ x ∈ t.segments, x.segment.Valid) (r e : String)
    (A B : List TreeElem) (hA : Path t r A) (hB : Path t e B)
    (hmade : ∀ x ∈ A, x ∉ B → x.segment.joint.Made ∧ (x.moving → x.segment.joint.scale = 1)) :
    ∃ c A' B', t.getChain r e = some (true, c) ∧ c.WF ∧ c.Valid ∧ A' <:+ A ∧ B' <:+ B ∧
      ∀ q : ℕ → ℝ, fkPos c (itemVals q (A'.reverse.map TreeElem.rev ++ B'.map TreeElem.fwd)) (-1) =
        some (E_NOERROR, (fkP q A).inv * fkP q B) := by
  obtain ⟨C, A', B', c, rs, h1, h2, h3, h4, h5, h6, h7, h8⟩ := C33_shape t h r e A B hA hB (by
    intro x hx hxB
    exact ⟨(hmade x hx hxB).1, (hv x (hA.mem x hx)).2, (hmade x hx hxB).2⟩)
  have hB'v : ∀ x ∈ B', x.segment.Valid := fun x hx => hv x (hB.mem x (by rw [h2]; simp [hx]))
  have hA'v : ∀ x ∈ A', x.segment.Valid := fun x hx => hv x (hA.mem x (by rw [h1]; simp [hx]))
  have hCv : ∀ x ∈ C, x.segment.Valid := fun x hx => hv x (hA.mem x (by rw [h1]; simp [hx]))
  have hreal : List.Forall₂ Item.Real (A'.reverse.map TreeElem.rev ++ B'.map TreeElem.fwd) c.segments := by
    rw [h6]
    apply List.rel_append h7
    clear h3 h6 h2
    induction B' with
    | nil => exact .nil
    | cons x B' ih =>
      exact .cons ⟨rfl, hB'v x (by simp), fun _ => rfl⟩ (ih (fun y hy => hB'v y (by simp [hy])))
  refine ⟨c, A', B', h4, h5, ?_, ⟨C, h1.symm⟩, ⟨C, h2.symm⟩, ?_⟩
  · intro s hs
    have : ∀ (l : List Item) (ss : List Segment), List.Forall₂ Item.Real l ss → ∀ s ∈ ss, s.Valid := by
      intro l ss hl
      induction hl with
      | nil => intro s hs; simp at hs
      | cons h0 _ ih =>
        intro s hs
        simp only [List.mem_cons] at hs
        rcases hs with rfl | hs
        · exact h0.2.1
        · exact ih s hs
    exact this _ _ hreal s hs
  · intro q
    have hlen := itemVals_length q _ _ hreal
    rw [C25_fk c h5]
    have hseg : segmentNr c (-1) = c.nrOfSegments := by simp [segmentNr]
    rw [if_neg (by rw [hlen, h5.2]; simp), hseg, if_neg (by omega), ← fkF_eq_spec c _ _ (by rw [h5.1]), h5.1,
      List.take_length]
    have := fkF_items q _ _ hreal []
    simp only [List.nil_append, List.length_nil] at this
    rw [this, itemPose_append, itemPose_fwd, itemPose_rev q A' hA'v, h1, h2, fkP_append, fkP_append,
      Frame.mul_inv (isProper_fkP q C hCv)]
    congr 2
    rw [mul_assoc, ← mul_assoc (fkP q C).inv, Frame.inv_mul_self (isProper_fkP q C hCv), one_mul]

/-- A chain from the root down is simply the segments of the path (any scales). -/
theorem C33_from_root (t : Tree) (h : t.Reach) (e : String) (B : List TreeElem) (hB : Path t e B) :
    ∃ c, t.getChain t.root_name e = some (true, c) ∧ c.WF ∧ c.segments = B.map TreeElem.segment := by
  obtain ⟨r0, rest, _, _, hroot, _⟩ := root_cons h.wf
  obtain ⟨C, A', B', c, rs, h1, h2, h3, h4, h5, h6, h7, h8⟩ := C33_shape t h t.root_name e [] B (.root hroot) hB (by simp)
  have hC : C = [] ∧ A' = [] := by simpa using h1.symm
  obtain ⟨rfl, rfl⟩ := hC
  simp only [List.reverse_nil, List.map_nil] at h7
  cases h7
  simp only [List.nil_append] at h2 h6
  exact ⟨c, h4, h5, by rw [h6, h2]⟩

/-- A segment with a `TransX` joint of scale 2. -/
def sc2 : Segment := ⟨"A", ⟨"j", .TransX, 2, 0, 0, 0, 0, 0, 0⟩, RBI.zero, 1⟩
/-- Tree with the single segment `sc2`. -/
def treeSc2 : Tree := ((new "r").addSegment sc2 "r").2
theorem treeSc2_eq : treeSc2 = ⟨[⟨Segment.ofName "r", 0, none, ["A"]⟩, ⟨sc2, 0, some "r", []⟩], 1, 1, "r"⟩ := by
  simp [treeSc2, addSegment, find, new, TreeElem.name, Segment.ofName, attach, sc2, Segment.moving, Joint.moving]
theorem treeSc2_path : Path treeSc2 "A" [⟨sc2, 0, some "r", []⟩] := by
  have h1 : treeSc2.find "A" = some ⟨sc2, 0, some "r", []⟩ := by
    rw [treeSc2_eq]; simp [find, TreeElem.name, Segment.ofName, sc2]
  have h2 : treeSc2.root_name = "r" := by rw [treeSc2_eq]
  have h3 : treeSc2.find treeSc2.root_name = some ⟨Segment.ofName "r", 0, none, ["A"]⟩ := by
    rw [treeSc2_eq]; simp [find, TreeElem.name, Segment.ofName]
  exact .step (l := []) h1 (by rw [h2]; decide) rfl (h2 ▸ .root h3)

/-- FULL PROPERTY "for all joint scales the extracted chain moves like the tree" fails: the reversed joint is built
without the scale (tree.cpp:152), so a joint with scale 2 moves half as far in the chain. -/
theorem C33_reversed_scale_violated :
    ∃ (t : Tree) (A : List TreeElem) (c : Chain), t.Reach ∧ (∀ x ∈ t.segments, x.segment.Valid) ∧ Path t "A" A ∧
      t.getChain "A" "r" = some (true, c) ∧
      fkPos c [1] (-1) ≠ some (E_NOERROR, (fkP (fun _ => 1) A).inv) := by
  have hdiv : (⟨-1, 0, 0⟩ : Vec).norm = 1 := norm_of_unit (by simp [Vec.dot])
  refine ⟨treeSc2, _, ⟨1, 1, [Segment.mk' "r" ⟨"j", .TransAxis, 1, 0, 0, 0, 0, ⟨-1, 0, 0⟩, 0⟩ 1 RBI.zero]⟩,
    .add _ _ (.new _), ?_, treeSc2_path, ?_, ?_⟩
  · rw [treeSc2_eq]
    intro x hx
    simp only [List.mem_cons, List.not_mem_nil, or_false] at hx
    rcases hx with rfl | rfl
    · exact ⟨by simp [Segment.ofName, Joint.Valid], Frame.IsProper.one⟩
    · exact ⟨by simp [sc2, Joint.Valid], Frame.IsProper.one⟩
  · have hp : (sc2.pose 0).inv = 1 := by
      ext <;> simp [sc2, Segment.pose, Joint.pose, Frame.ofVec]
    have hax : (1 : Rot) * -(⟨1, 0, 0⟩ : Vec) = ⟨-1, 0, 0⟩ := by ext <;> simp
    have ho : (1 : Frame) * (0 : Vec) = 0 := by rw [Frame.app_vec]; simp
    have hq : (⟨-1, 0, 0⟩ : Vec) / (1 : ℝ) = ⟨-1, 0, 0⟩ := by ext <;> simp
    have hrev : reverseSegment sc2 (Segment.ofName "r") = some
        (Segment.mk' "r" ⟨"j", .TransAxis, 1, 0, 0, 0, 0, ⟨-1, 0, 0⟩, 0⟩ 1 RBI.zero) := by
      unfold reverseSegment Joint.mkAxis
      simp only [hp]
      rw [if_neg (by simp [sc2]), if_pos (by simp [sc2]), if_neg (by simp)]
      have : (1 : Frame).M * -sc2.joint.jointAxis = ⟨-1, 0, 0⟩ := by
        rw [Frame.one_M]; simp only [sc2, Joint.jointAxis]; exact hax
      rw [this, hdiv, if_neg one_ne_zero, hq]
      simp [sc2, Joint.jointOrigin, ho, Segment.ofName]
    rw [treeSc2_eq]
    simp [getChain, walkUp, find, TreeElem.name, sc2, Segment.ofName, stripCommon, addReversed, addForward,
      Chain.addSegment, Chain.empty]
    have hrev' := hrev
    simp only [sc2, Segment.ofName] at hrev'
    rw [hrev']
    simp [Segment.mk', Segment.moving, Joint.moving]
  · have hwf : (⟨1, 1, [Segment.mk' "r" ⟨"j", .TransAxis, 1, 0, 0, 0, 0, ⟨-1, 0, 0⟩, 0⟩ 1 RBI.zero]⟩ : Chain).WF :=
      ⟨rfl, by simp [nMoving_cons, Segment.mk', Segment.moving, Joint.moving]⟩
    rw [C25_fk _ hwf]
    simp only [segmentNr]
    rw [if_neg (by simp), if_neg (by simp)]
    intro hh
    simp only [Option.some.injEq, Prod.mk.injEq, true_and] at hh
    have := congrArg (fun F : Frame => F.p.x) hh
    simp [fkSpec, segPoseSpec, Segment.mk', Segment.moving, Joint.moving, Segment.pose, Joint.pose, Frame.ofVec, fkP,
      sc2] at this

/-! ## C34: tree forward kinematics -/

/-- Complete behaviour of the solver on its own tree with at least one joint. -/
theorem C34_fk (t : Tree) (h : t.Reach) (h0 : 0 < t.nrOfJoints) (q : List ℝ) (n : String) :
    (q.length ≠ t.nrOfJoints → t.fkTree q n = some (-1, none)) ∧
    (q.length = t.nrOfJoints → n ∉ t.names → t.fkTree q n = some (-2, none)) ∧
    (q.length = t.nrOfJoints → ∀ l, Path t n l → t.fkTree q n = some (0, some (fkP (rd q) l))) := by
  refine ⟨?_, ?_, ?_⟩
  · intro hq; simp [fkTree, hq]
  · intro hq hn; simp [fkTree, hq, find_none.mpr hn]
  · intro hq l hl
    obtain ⟨e, he⟩ := hl.found
    have hlen : l.length < t.segments.length := by
      obtain ⟨l', hl', hlen⟩ := path_of_mem h.wf (mem_names.mpr hl.found)
      rw [hl.unique hl']; exact hlen
    unfold fkTree
    rw [if_neg (by simp [hq]), he]
    simp only
    rw [recursiveFk_eq h h0 q hq hl _ (by omega)]
    rfl

/-- Tree and chain forward kinematics agree: the frame of `n` equals the chain solver's result on the chain from the
root to `n`, fed with the values of the joints on the path. -/
theorem C34_agrees_with_chain (t : Tree) (h : t.Reach) (hv : ∀ x ∈ t.segments, x.segment.Valid) (h0 : 0 < t.nrOfJoints)
    (q : List ℝ) (hq : q.length = t.nrOfJoints) (n : String) (l : List TreeElem) (hl : Path t n l) :
    ∃ c F, t.getChain t.root_name n = some (true, c) ∧ t.fkTree q n = some (0, some F) ∧
      fkPos c (itemVals (rd q) (l.map TreeElem.fwd)) (-1) = some (E_NOERROR, F) := by
  obtain ⟨r0, rest, _, _, hroot, _⟩ := root_cons h.wf
  obtain ⟨c, A', B', h1, h2, h3, h4, h5, h6⟩ := C33_kinematics_partial t h hv t.root_name n [] l (.root hroot) hl (by simp)
  obtain ⟨c', k1, k2, k3⟩ := C33_from_root t h n l hl
  rw [h1] at k1
  simp only [Option.some.injEq, Prod.mk.injEq, true_and] at k1
  subst k1
  have hA' : A' = [] := by simpa using h4
  subst hA'
  refine ⟨c, fkP (rd q) l, h1, (C34_fk t h h0 q n).2.2 hq l hl, ?_⟩
  have hreal : List.Forall₂ Item.Real (l.map TreeElem.fwd) c.segments := by
    rw [k3]
    clear h5 h6 k3
    have hlv : ∀ x ∈ l, x.segment.Valid := fun x hx => hv x (hl.mem x hx)
    clear hl
    induction l with
    | nil => exact .nil
    | cons x l ih => exact .cons ⟨rfl, hlv x (by simp), fun _ => rfl⟩ (ih (fun y hy => hlv y (by simp [hy])))
  rw [C25_fk c h2]
  have hseg : segmentNr c (-1) = c.nrOfSegments := by simp [segmentNr]
  rw [if_neg (by rw [itemVals_length _ _ _ hreal, h2.2]; simp), hseg, if_neg (by omega),
    ← fkF_eq_spec c _ _ (by rw [h2.1]), h2.1, List.take_length]
  have := fkF_items (rd q) _ _ hreal []
  simp only [List.nil_append, List.length_nil] at this
  rw [this, itemPose_fwd]

/-- FULL PROPERTY "the solver answers for every tree" fails for a tree without moving joints: it reads element 0 of the
empty joint array for the root (treefksolverpos_recursive.cpp:52). -/
theorem C34_no_joints_violated (t : Tree) (h : t.Reach) (h0 : t.nrOfJoints = 0) (n : String) (hn : n ∈ t.names) :
    t.fkTree [] n = none := by
  obtain ⟨e, he⟩ := mem_names.mp hn
  unfold fkTree
  rw [if_neg (by simp [h0]), he]
  simp only
  rw [recursiveFk]
  simp [he]

/-- The solver object: it stores its own copy of the tree (treefksolverpos_recursive.hpp:46 `const Tree tree;`). -/
def fkSolver (t : Tree) (q : List ℝ) (n : String) : Option (Int × Option Frame) := (t.copy).bind fun t' => t'.fkTree q n

/-- With a tree whose segments were added depth first the solver uses the joint numbers of the tree it was given. -/
theorem C34_solver_partial (t : Tree) (h : t.Reach) (h0 : 0 < t.nrOfJoints) (hd : t.names = t.dfsNames) (q : List ℝ)
    (hq : q.length = t.nrOfJoints) (n : String) (l : List TreeElem) (hl : Path t n l) :
    t.fkSolver q n = some (0, some (fkP (rd q) l)) := by
  unfold fkSolver
  rw [(C32_copy_exact_iff h).mpr hd]
  exact (C34_fk t h h0 q n).2.2 hq l hl

theorem demoCopy : demo.copy = some ⟨[⟨Segment.ofName "r", 0, none, ["A", "B"]⟩, ⟨mv "A", 0, some "r", ["C"]⟩,
    ⟨mv "C", 1, some "A", []⟩, ⟨mv "B", 2, some "r", []⟩], 3, 3, "r"⟩ := by
  rw [demo_eq]
  simp [copy, addTree, find, new, TreeElem.name, Segment.ofName, addTreeRec, addSegment, attach, mv, Segment.moving,
    Joint.moving]

/-- FULL PROPERTY "the solver uses the joint numbers of the tree it was given" fails for trees not added depth first:
in the tree of `C32_copy_numbering_violated` joint 1 belongs to segment B, but setting `q(1) = π` leaves B where it was. -/
theorem C34_solver_numbering_violated :
    ∃ (t : Tree) (q : List ℝ) (n : String) (l : List TreeElem), t.Reach ∧ Path t n l ∧ q.length = t.nrOfJoints ∧
      0 < t.nrOfJoints ∧ t.fkSolver q n ≠ some (0, some (fkP (rd q) l)) := by
  have h1 : demo.find "B" = some ⟨mv "B", 1, some "r", []⟩ := by
    rw [demo_eq]; simp [find, TreeElem.name, Segment.ofName, mv]
  have h2 : demo.root_name = "r" := by rw [demo_eq]
  have h3 : demo.find demo.root_name = some ⟨Segment.ofName "r", 0, none, ["A", "B"]⟩ := by
    rw [demo_eq]; simp [find, TreeElem.name, Segment.ofName]
  have hnj : demo.nrOfJoints = 3 := by rw [demo_eq]
  refine ⟨demo, [0, Real.pi, 0], "B", [⟨mv "B", 1, some "r", []⟩], demo_reach,
    .step (l := []) h1 (by rw [h2]; decide) rfl (h2 ▸ .root h3), by rw [hnj]; rfl, by rw [hnj]; omega, ?_⟩
  obtain ⟨t', k1, k2, _, k4, k5, _⟩ := C32_copy_structure demo_reach
  unfold fkSolver
  rw [k1]
  rw [demoCopy] at k1
  simp only [Option.some.injEq] at k1
  simp only [Option.bind_some]
  have f1 : t'.find "B" = some ⟨mv "B", 2, some "r", []⟩ := by
    rw [← k1]; simp [find, TreeElem.name, Segment.ofName, mv]
  have f2 : t'.root_name = "r" := by rw [← k1]
  have f3 : t'.find t'.root_name = some ⟨Segment.ofName "r", 0, none, ["A", "B"]⟩ := by
    rw [← k1]; simp [find, TreeElem.name, Segment.ofName]
  have hp : Path t' "B" [⟨mv "B", 2, some "r", []⟩] := .step (l := []) f1 (by rw [f2]; decide) rfl (f2 ▸ .root f3)
  rw [(C34_fk t' k2 (by rw [k5, hnj]; omega) [0, Real.pi, 0] "B").2.2 (by rw [k5, hnj]; rfl) _ hp]
  intro hh
  simp only [Option.some.injEq, Prod.mk.injEq, true_and] at hh
  have := congrArg (fun F : Frame => F.M.m11) hh
  simp [fkP, rd, mv, Segment.pose, Joint.pose, Frame.ofRot, Rot.rotX] at this
  norm_num at this

/-! ## C35: tree Jacobian -/

/-- The Jacobian computed for segment `n` maps joint rates to the twist of that segment's frame (origin and coordinates
of the result: tip point, root orientation), has one column per joint of the tree, and its columns vanish for joints
not on the path to `n`. -/
theorem C35_jacobian (t : Tree) (h : t.Reach) (hv : ∀ x ∈ t.segments, x.segment.Valid) (h0 : 0 < t.nrOfJoints)
    (q : List ℝ) (hq : q.length = t.nrOfJoints) (jac : Jac) (hj : jac.length = t.nrOfJoints)
    (n : String) (l : List TreeElem) (hl : Path t n l) :
    ∃ J, t.jacTree q jac n = some (0, J) ∧ J.length = t.nrOfJoints ∧
      (∀ k, (∀ e ∈ l, e.moving = true → e.q_nr ≠ k) → J.getD k 0 = 0) ∧
      ∀ (Q : ℝ → ℕ → ℝ) (qd : ℕ → ℝ) (τ : ℝ), JntHasDeriv Q qd τ → Q τ = rd q →
        Frame.HasTwist (fun s => fkP (Q s) l) (dsum qd J 0) τ := by
  obtain ⟨e, he⟩ := hl.found
  have hlen : l.length < t.segments.length := by
    obtain ⟨l', hl', hlen⟩ := path_of_mem h.wf (mem_names.mpr hl.found)
    rw [hl.unique hl']; exact hlen
  have hz : jac.setToZero = List.replicate t.nrOfJoints 0 := by
    rw [← hj]; unfold Jac.setToZero; exact List.map_const' ..
  have hlv : ∀ x ∈ l, x.segment.Valid := fun x hx => hv x (hl.mem x hx)
  obtain ⟨J, k1, k2, k3, k4⟩ := treeJacLoop_eq h h0 q hq hv hl (t.segments.length + 1) [] jac.setToZero (by omega)
    (by rw [hz]; simp) (by simp)
    (by
      intro x _ _
      rw [hz, List.getD_eq_getElem?_getD, List.getElem?_replicate]
      split_ifs <;> rfl)
    (by
      intro qd
      rw [hz, dsum_zeros]
      ext <;> simp [twP])
  have hT : fkP (rd q) [] = 1 := rfl
  rw [hT, List.append_nil] at k1
  simp only [List.append_nil] at k3
  refine ⟨J.changeBase (fkP (rd q) l).M, ?_, by simpa [Jac.changeBase] using k2, ?_, ?_⟩
  · unfold jacTree
    rw [if_neg (by simp [hq, hj]), he]
    simp only [k1, Option.bind_eq_bind, Option.bind_some]
  · intro k hk
    have h5 := k4 k hk
    have h6 : jac.setToZero.getD k 0 = 0 := by
      rw [hz, List.getD_eq_getElem?_getD, List.getElem?_replicate]
      split_ifs <;> rfl
    rw [h6] at h5
    unfold Jac.changeBase
    rw [List.getD_eq_getElem?_getD, List.getElem?_map]
    rw [List.getD_eq_getElem?_getD] at h5
    cases hJk : J[k]? with
    | none => rfl
    | some y =>
      rw [hJk] at h5
      simp at h5
      subst h5
      simp only [Option.map_some, Option.getD_some]
      ext <;> simp
  · intro Q qd τ hQ hQq
    have := twP_hasTwist hQ l hlv
    have heq : dsum qd (J.changeBase (fkP (rd q) l).M) 0 = twP (Q τ) qd l := by
      unfold Jac.changeBase
      rw [dsum_changeBase', k3 qd, hQq]
      have hp := isProper_fkP (rd q) l hlv
      ext1
      · simp only [Rot.twist_vel]; rw [Rot.IsProper.app_inv_app hp]
      · simp only [Rot.twist_rot]; rw [Rot.IsProper.app_inv_app hp]
    rw [heq]; exact this

/-- Error codes of the Jacobian solver; the output is untouched. -/
theorem C35_errors (t : Tree) (q : List ℝ) (jac : Jac) (n : String) :
    (q.length ≠ t.nrOfJoints ∨ jac.length ≠ t.nrOfJoints → t.jacTree q jac n = some (-1, jac)) ∧
    (q.length = t.nrOfJoints → jac.length = t.nrOfJoints → n ∉ t.names → t.jacTree q jac n = some (-2, jac)) := by
  constructor
  · intro h; simp [jacTree, h]
  · intro h1 h2 h3
    simp [jacTree, h1, h2, find_none.mpr h3]

/-- FULL PROPERTY "the solver answers for every tree" fails for a tree without moving joints: below the root it reads
element 0 of the empty joint array (treejnttojacsolver.cpp:45); only the root itself is answered. -/
theorem C35_no_joints_violated (t : Tree) (h : t.Reach) (h0 : t.nrOfJoints = 0) (n : String) (hn : n ∈ t.names) :
    (n ≠ t.root_name → t.jacTree [] [] n = none) ∧ (n = t.root_name → t.jacTree [] [] n = some (0, [])) := by
  obtain ⟨e, he⟩ := mem_names.mp hn
  constructor
  · intro hr
    unfold jacTree
    rw [if_neg (by simp [h0]), he]
    simp only
    rw [treeJacLoop, if_neg hr]
    simp [he]
  · intro hr
    unfold jacTree
    rw [if_neg (by simp [h0]), he]
    simp only
    rw [treeJacLoop, if_pos hr]
    simp [Jac.setToZero, Jac.changeBase]

/-- The solver object: it stores its own copy of the tree (treejnttojacsolver.hpp:32 `KDL::Tree tree;`). -/
def jacSolver (t : Tree) (q : List ℝ) (jac : Jac) (n : String) : Option (Int × Jac) :=
  (t.copy).bind fun t' => t'.jacTree q jac n

/-- With a tree whose segments were added depth first the solver's columns follow the joint numbers of the tree it was
given.  Missing: trees added in another order (`C35_solver_numbering_violated`) and trees without joints
(`C35_no_joints_violated`). -/
theorem C35_solver_partial (t : Tree) (h : t.Reach) (hv : ∀ x ∈ t.segments, x.segment.Valid) (h0 : 0 < t.nrOfJoints)
    (hd : t.names = t.dfsNames) (q : List ℝ) (hq : q.length = t.nrOfJoints) (jac : Jac) (hj : jac.length = t.nrOfJoints)
    (n : String) (l : List TreeElem) (hl : Path t n l) :
    ∃ J, t.jacSolver q jac n = some (0, J) ∧ J.length = t.nrOfJoints ∧
      (∀ k, (∀ e ∈ l, e.moving = true → e.q_nr ≠ k) → J.getD k 0 = 0) ∧
      ∀ (Q : ℝ → ℕ → ℝ) (qd : ℕ → ℝ) (τ : ℝ), JntHasDeriv Q qd τ → Q τ = rd q →
        Frame.HasTwist (fun s => fkP (Q s) l) (dsum qd J 0) τ := by
  unfold jacSolver
  rw [(C32_copy_exact_iff h).mpr hd]
  exact C35_jacobian t h hv h0 q hq jac hj n l hl

theorem demo_valid : ∀ x ∈ demo.segments, x.segment.Valid := by
  rw [demo_eq]
  intro x hx
  simp only [List.mem_cons, List.not_mem_nil, or_false] at hx
  rcases hx with rfl | rfl | rfl | rfl
  · exact ⟨by simp [Segment.ofName, Joint.Valid], Frame.IsProper.one⟩
  all_goals exact ⟨by simp [mv, Joint.Valid], Frame.IsProper.one⟩

/-- FULL PROPERTY "the columns follow the joint numbers of the tree given to the solver" fails for trees not added depth
first: in the tree of `C32_copy_numbering_violated` segment B turns with joint 1, but the solver's Jacobian for B
multiplied by the rates of a motion of joint 1 alone is not the twist of B. -/
theorem C35_solver_numbering_violated :
    ∃ (t : Tree) (q : List ℝ) (n : String) (l : List TreeElem) (J : Jac) (Q : ℝ → ℕ → ℝ) (qd : ℕ → ℝ),
      t.Reach ∧ (∀ x ∈ t.segments, x.segment.Valid) ∧ Path t n l ∧ q.length = t.nrOfJoints ∧ 0 < t.nrOfJoints ∧
      t.jacSolver q (List.replicate t.nrOfJoints 0) n = some (0, J) ∧ JntHasDeriv Q qd 0 ∧ Q 0 = rd q ∧
      ¬ Frame.HasTwist (fun s => fkP (Q s) l) (dsum qd J 0) 0 := by
  have h1 : demo.find "B" = some ⟨mv "B", 1, some "r", []⟩ := by
    rw [demo_eq]; simp [find, TreeElem.name, Segment.ofName, mv]
  have h2 : demo.root_name = "r" := by rw [demo_eq]
  have h3 : demo.find demo.root_name = some ⟨Segment.ofName "r", 0, none, ["A", "B"]⟩ := by
    rw [demo_eq]; simp [find, TreeElem.name, Segment.ofName]
  have hnj : demo.nrOfJoints = 3 := by rw [demo_eq]
  obtain ⟨t', k1, k2, k3, k4, k5, _⟩ := C32_copy_structure demo_reach
  have k1' := k1
  rw [demoCopy] at k1
  simp only [Option.some.injEq] at k1
  have f1 : t'.find "B" = some ⟨mv "B", 2, some "r", []⟩ := by
    rw [← k1]; simp [find, TreeElem.name, Segment.ofName, mv]
  have f2 : t'.root_name = "r" := by rw [← k1]
  have f3 : t'.find t'.root_name = some ⟨Segment.ofName "r", 0, none, ["A", "B"]⟩ := by
    rw [← k1]; simp [find, TreeElem.name, Segment.ofName]
  have hp : Path t' "B" [⟨mv "B", 2, some "r", []⟩] := .step (l := []) f1 (by rw [f2]; decide) rfl (f2 ▸ .root f3)
  have hv' : ∀ x ∈ t'.segments, x.segment.Valid := by
    rw [← k1]
    intro x hx
    simp only [List.mem_cons, List.not_mem_nil, or_false] at hx
    rcases hx with rfl | rfl | rfl | rfl
    · exact ⟨by simp [Segment.ofName, Joint.Valid], Frame.IsProper.one⟩
    all_goals exact ⟨by simp [mv, Joint.Valid], Frame.IsProper.one⟩
  obtain ⟨J, j1, j2, j3, -⟩ := C35_jacobian t' k2 hv' (by rw [k5, hnj]; omega) [0, 0, 0] (by rw [k5, hnj]; rfl)
    (List.replicate demo.nrOfJoints 0) (by rw [k5]; simp) "B" _ hp
  refine ⟨demo, [0, 0, 0], "B", [⟨mv "B", 1, some "r", []⟩], J, fun s k => if k = 1 then s else 0,
    fun k => if k = 1 then 1 else 0, demo_reach, demo_valid,
    .step (l := []) h1 (by rw [h2]; decide) rfl (h2 ▸ .root h3), by rw [hnj]; rfl, by rw [hnj]; omega, ?_, ?_, ?_, ?_⟩
  · unfold jacSolver
    rw [k1']
    exact j1
  · intro k
    by_cases hk : k = 1
    · simp only [hk, if_true]; exact hasDerivAt_id 0
    · simp only [hk, if_false]; exact hasDerivAt_const _ _
  · funext k
    have : rd [0, 0, 0] k = 0 := by
      unfold rd
      rcases k with _ | _ | _ | k <;> simp
    rw [this]
    simp
  · have hz : dsum (fun k => if k = 1 then (1 : ℝ) else 0) J 0 = 0 := by
      rw [k5, hnj] at j2
      have c1 := j3 1 (by simp)
      match J, j2, c1 with
      | [a, b, c], _, c1 =>
        have hb : b = 0 := by simpa using c1
        subst hb
        simp only [dsum]
        ext <;> simp
    rw [hz]
    intro hh
    have := hh.rot.m21
    have h4 : HasDerivAt (fun s : ℝ => Real.sin s) 0 0 := by
      have e : (fun s : ℝ => (fkP (fun k => if k = 1 then s else 0) [⟨mv "B", 1, some "r", []⟩]).M.m21) =
          fun s => Real.sin s := by
        funext s
        simp [fkP, mv, Segment.pose, Joint.pose, Frame.ofRot, Rot.rotX]
      rw [e] at this
      refine this.congr_deriv ?_
      simp [Rot.skew]
    have h5 := (Real.hasDerivAt_sin 0).unique h4
    simp at h5

/-- Non-vacuity. -/
example : ∃ J, demo.jacTree [0, 0, 0] [0, 0, 0] "A" = some (0, J) ∧ J.length = 3 := by
  have h3 : demo.nrOfJoints = 3 := by rw [demo_eq]
  have hn : "A" ∈ demo.names := by rw [demo_eq]; simp [names, TreeElem.name, mv]
  obtain ⟨l, hl⟩ := (C34_path demo demo_reach "A").1.mp hn
  obtain ⟨J, h1, h2, _⟩ := C35_jacobian demo demo_reach demo_valid (by rw [h3]; omega) [0, 0, 0] (by rw [h3]; rfl)
    [0, 0, 0] (by rw [h3]; rfl) "A" l hl
  exact ⟨J, h1, by rw [h2, h3]⟩

end Tree
end KDL
