import Verif.Lemmas.Tree
import Verif.Lemmas.JacDot

/-! Facts about paths in trees, extracted chains and tree kinematics. -/

noncomputable section
namespace KDL

theorem Frame.mul_inv_self {F : Frame} (h : F.IsProper) : F * F.inv = 1 := by
  ext1
  · simp only [Frame.mul_M, Frame.inv_M, Frame.one_M]; exact h.1
  · simp only [Frame.mul_p, Frame.inv_p, Frame.one_p, Rot.app_neg]
    rw [Rot.IsProper.app_inv_app h]; simp
theorem Frame.inv_mul_self {F : Frame} (h : F.IsProper) : F.inv * F = 1 := by
  ext1
  · simp only [Frame.mul_M, Frame.inv_M, Frame.one_M]; exact Rot.IsProper.inv_mul_self h
  · simp
theorem Frame.mul_inv {F : Frame} (hF : F.IsProper) (G : Frame) : (F * G).inv = G.inv * F.inv := by
  ext1
  · simp [Rot.inv_mul]
  · simp only [Frame.inv_p, Frame.mul_M, Frame.mul_p, Rot.inv_mul, Frame.inv_M, Rot.app_neg, Rot.app_add, Rot.mul_app,
      Rot.IsProper.inv_app_app hF]
    abel

namespace Joint
/-- What the constructors guarantee: unit axis for the axis types, zero origin for the others (joint.cpp:27–66). -/
def Made (j : Joint) : Prop := j.Valid ∧ (j.type ≠ .RotAxis → j.type ≠ .TransAxis → j.origin = 0)
end Joint

theorem norm_of_unit {a : Vec} (h : a.dot a = 1) : a.norm = 1 := by
  have hl : a.len = 1 := by rw [Vec.len_eq_sqrt_dot, h, Real.sqrt_one]
  rw [Vec.norm_eq _ _ epsilon_pos, if_neg, hl]
  rintro ⟨h1, h2, h3⟩
  have hx : |a.x| < 1 / 2 := by
    refine h3.trans ?_; norm_num [epsilon]
  have e1 : a.x * a.x ≤ 1 / 4 := by
    have := abs_lt.mp hx; nlinarith
  have e2 : a.y * a.y ≤ a.x * a.x := by
    have := mul_self_le_mul_self (abs_nonneg a.y) h1; rwa [abs_mul_abs_self, abs_mul_abs_self] at this
  have e3 : a.z * a.z ≤ a.x * a.x := by
    have := mul_self_le_mul_self (abs_nonneg a.z) h2; rwa [abs_mul_abs_self, abs_mul_abs_self] at this
  simp only [Vec.dot] at h
  nlinarith

theorem rot_pose {j : Joint} (h : j.Made)
    (ht : j.type = .RotX ∨ j.type = .RotY ∨ j.type = .RotZ ∨ j.type = .RotAxis) (q : ℝ) :
    j.pose q = ⟨Rot.rot2 j.jointAxis (j.scale * q + j.offset), j.jointOrigin⟩ ∧ j.jointAxis.dot j.jointAxis = 1 := by
  rcases ht with ht | ht | ht | ht
  · have := h.2 (by simp [ht]) (by simp [ht])
    simp [Joint.pose, ht, Joint.jointAxis, Joint.jointOrigin, this, Rot.rotX_eq, Frame.ofRot, Vec.dot]
  · have := h.2 (by simp [ht]) (by simp [ht])
    simp [Joint.pose, ht, Joint.jointAxis, Joint.jointOrigin, this, Rot.rotY_eq, Frame.ofRot, Vec.dot]
  · have := h.2 (by simp [ht]) (by simp [ht])
    simp [Joint.pose, ht, Joint.jointAxis, Joint.jointOrigin, this, Rot.rotZ_eq, Frame.ofRot, Vec.dot]
  · have := h.1 (Or.inl ht)
    simp [Joint.pose, ht, Joint.jointAxis, Joint.jointOrigin, this]

theorem trans_pose {j : Joint} (h : j.Made)
    (ht : j.type = .TransX ∨ j.type = .TransY ∨ j.type = .TransZ ∨ j.type = .TransAxis) (q : ℝ) :
    j.pose q = ⟨1, j.jointOrigin + (j.scale * q + j.offset) • j.jointAxis⟩ ∧ j.jointAxis.dot j.jointAxis = 1 := by
  rcases ht with ht | ht | ht | ht
  · have := h.2 (by simp [ht]) (by simp [ht])
    refine ⟨?_, by simp [ht, Joint.jointAxis, Vec.dot]⟩
    simp only [Joint.pose, ht, Joint.jointAxis, Joint.jointOrigin, this, Frame.ofVec]
    congr 1; ext <;> simp
  · have := h.2 (by simp [ht]) (by simp [ht])
    refine ⟨?_, by simp [ht, Joint.jointAxis, Vec.dot]⟩
    simp only [Joint.pose, ht, Joint.jointAxis, Joint.jointOrigin, this, Frame.ofVec]
    congr 1; ext <;> simp
  · have := h.2 (by simp [ht]) (by simp [ht])
    refine ⟨?_, by simp [ht, Joint.jointAxis, Vec.dot]⟩
    simp only [Joint.pose, ht, Joint.jointAxis, Joint.jointOrigin, this, Frame.ofVec]
    congr 1; ext <;> simp
  · have := h.1 (Or.inr ht)
    simp [Joint.pose, ht, Joint.jointAxis, Joint.jointOrigin, this, Frame.ofVec]

/-- Reversal of a rotational segment, as frames. -/
theorem reverse_rot (a o : Vec) (ha : a.dot a = 1) (off x : ℝ) (f G : Frame) (hf : f.IsProper)
    (hG : G = ⟨Rot.rot2 a off, o⟩ * f) :
    (⟨Rot.rot2 (G.inv.M * (-a)) (1 * x + 0), G.inv * o⟩ : Frame) *
      ((⟨Rot.rot2 (G.inv.M * (-a)) (1 * 0 + 0), G.inv * o⟩ : Frame).inv * G.inv) =
    ((⟨Rot.rot2 a (x + off), o⟩ : Frame) * f).inv := by
  have hR := Rot.isProper_rot2 a ha off
  have hS := Rot.isProper_rot2 a ha x
  have hSi := Rot.isProper_rot2 a ha (-x)
  have hGp : G.M.IsProper := by rw [hG]; exact hR.mul hf
  have hneg : Rot.rot2 (-a) x = Rot.rot2 a (-x) := by
    ext <;> simp [Rot.rot2]
  have hsum : Rot.rot2 a (x + off) = Rot.rot2 a x * Rot.rot2 a off := by rw [Rot.rot2_mul a ha]
  have hJ : Rot.rot2 (G.inv.M * (-a)) x = G.M.inv * Rot.rot2 a (-x) * G.M := by
    rw [Frame.inv_M, ← Rot.rot2_conj _ hGp.inv, hneg, Rot.inv_inv]
  have hSinv : Rot.rot2 a (-x) = (Rot.rot2 a x).inv := Rot.rot2_neg a x
  simp only [one_mul, add_zero, Rot.rot2_zero, hJ, hSinv, hsum]
  have hGM : G.M = Rot.rot2 a off * f.M := by rw [hG]; rfl
  have hGp' : G.p = Rot.rot2 a off * f.p + o := by rw [hG]; rfl
  ext1
  · simp only [Frame.mul_M, Frame.inv_M, Rot.inv_one, one_mul, hGM, Rot.inv_mul]
    rw [mul_assoc, mul_assoc, show (Rot.rot2 a off * f.M * (f.M.inv * (Rot.rot2 a off).inv)) = 1 by
      rw [← Rot.inv_mul]; exact (hR.mul hf).1]
    simp [mul_assoc]
  · simp only [Frame.mul_p, Frame.inv_p, Frame.inv_M, Frame.mul_M, Frame.app_vec, Rot.inv_one, Rot.one_app, hGM, hGp',
      Rot.inv_mul, Rot.mul_app, Rot.app_add, Rot.app_neg, hR.inv_app_app, hS.inv_app_app,
      Rot.IsProper.inv_app_app hf, hR.app_inv_app, Rot.IsProper.app_inv_app hf]
    abel

/-- Reversal of a translational segment, as frames. -/
theorem reverse_trans (a o : Vec) (off x : ℝ) (f G : Frame) (hf : f.IsProper)
    (hG : G = ⟨1, o + off • a⟩ * f) :
    (⟨1, G.inv * o + (1 * x + 0) • (G.inv.M * (-a))⟩ : Frame) *
      ((⟨1, G.inv * o + (1 * 0 + 0) • (G.inv.M * (-a))⟩ : Frame).inv * G.inv) =
    ((⟨1, o + (x + off) • a⟩ : Frame) * f).inv := by
  have hGM : G.M = f.M := by rw [hG]; simp
  have hGp' : G.p = f.p + (o + off • a) := by rw [hG]; simp
  ext1
  · simp [hGM]
  · simp only [Frame.mul_p, Frame.inv_p, Frame.inv_M, Frame.mul_M, Frame.app_vec, Rot.inv_one, Rot.one_app, hGM, hGp',
      Rot.app_add, Rot.app_neg, Rot.app_smul, one_mul, add_zero, zero_smul, add_smul]
    simp only [smul_neg]
    abel

/-- A reversed segment undoes the segment for every joint value, if the joint scale is 1 (or the joint is fixed). -/
theorem Tree.reverseSegment_pose (seg dst : Segment) (hj : seg.joint.Made) (hf : seg.f_tip.IsProper)
    (hs : seg.moving → seg.joint.scale = 1) :
    ∃ s, Tree.reverseSegment seg dst = some s ∧ s.name = dst.name ∧ s.I = dst.I ∧ s.moving = seg.moving ∧ s.Valid ∧
      ∀ x, s.pose x = (seg.pose x).inv := by
  have hGi : (seg.pose 0).inv.IsProper := Frame.IsProper.inv (Segment.isProper_pose ⟨hj.1, hf⟩ 0)
  by_cases hr : seg.joint.type = .RotX ∨ seg.joint.type = .RotY ∨ seg.joint.type = .RotZ ∨ seg.joint.type = .RotAxis
  · have hsc : seg.joint.scale = 1 := hs (by
      unfold Segment.moving Joint.moving
      rcases hr with h | h | h | h <;> simp [h])
    have ha := (rot_pose hj hr 0).2
    have hna : ((seg.pose 0).inv.M * (-seg.joint.jointAxis)).dot ((seg.pose 0).inv.M * (-seg.joint.jointAxis)) = 1 := by
      rw [Rot.IsProper.dot hGi]; simp [ha]
    have hnorm := norm_of_unit hna
    have hdiv : ∀ v : Vec, v / (1 : ℝ) = v := by intro v; ext <;> simp
    refine ⟨Segment.mk' dst.name ⟨seg.joint.name, .RotAxis, 1, 0, 0, 0, 0, (seg.pose 0).inv.M * (-seg.joint.jointAxis),
      (seg.pose 0).inv * seg.joint.jointOrigin⟩ (seg.pose 0).inv dst.I, ?_, rfl, rfl, ?_, ⟨fun _ => ?_, ?_⟩, ?_⟩
    · unfold Tree.reverseSegment Joint.mkAxis
      simp only
      rw [if_pos hr, if_neg (by simp), hnorm, if_neg one_ne_zero]
      simp only [hdiv]
    · simp [Segment.mk', Segment.moving, Joint.moving]
      rcases hr with h | h | h | h <;> simp [h]
    · simp only [Segment.mk', hdiv]; exact hna
    · simp only [Segment.mk', Joint.pose, hdiv]
      exact Frame.IsProper.mul (Frame.IsProper.inv (Rot.isProper_rot2 _ hna _)) hGi
    · intro x
      have hp := fun q => (rot_pose hj hr q).1
      have := reverse_rot seg.joint.jointAxis seg.joint.jointOrigin ha seg.joint.offset x seg.f_tip (seg.pose 0) hf (by
        unfold Segment.pose; rw [hp 0, mul_zero, zero_add])
      have hrhs : seg.pose x = ⟨Rot.rot2 seg.joint.jointAxis (x + seg.joint.offset), seg.joint.jointOrigin⟩ * seg.f_tip := by
        unfold Segment.pose; rw [hp x, hsc, one_mul]
      rw [hrhs, ← this]; rfl
  by_cases ht : seg.joint.type = .TransX ∨ seg.joint.type = .TransY ∨ seg.joint.type = .TransZ ∨
      seg.joint.type = .TransAxis
  · have hsc : seg.joint.scale = 1 := hs (by
      unfold Segment.moving Joint.moving
      rcases ht with h | h | h | h <;> simp [h])
    have ha := (trans_pose hj ht 0).2
    have hna : ((seg.pose 0).inv.M * (-seg.joint.jointAxis)).dot ((seg.pose 0).inv.M * (-seg.joint.jointAxis)) = 1 := by
      rw [Rot.IsProper.dot hGi]; simp [ha]
    have hnorm := norm_of_unit hna
    have hdiv : ∀ v : Vec, v / (1 : ℝ) = v := by intro v; ext <;> simp
    refine ⟨Segment.mk' dst.name ⟨seg.joint.name, .TransAxis, 1, 0, 0, 0, 0, (seg.pose 0).inv.M * (-seg.joint.jointAxis),
      (seg.pose 0).inv * seg.joint.jointOrigin⟩ (seg.pose 0).inv dst.I, ?_, rfl, rfl, ?_, ⟨fun _ => ?_, ?_⟩, ?_⟩
    · unfold Tree.reverseSegment Joint.mkAxis
      simp only
      rw [if_neg hr, if_pos ht, if_neg (by simp), hnorm, if_neg one_ne_zero]
      simp only [hdiv]
    · simp [Segment.mk', Segment.moving, Joint.moving]
      rcases ht with h | h | h | h <;> simp [h]
    · simp only [Segment.mk', hdiv]; exact hna
    · simp only [Segment.mk', Joint.pose, hdiv, Frame.ofVec]
      exact Frame.IsProper.mul (Frame.IsProper.inv Rot.IsProper.one) hGi
    · intro x
      have hp := fun q => (trans_pose hj ht q).1
      have := reverse_trans seg.joint.jointAxis seg.joint.jointOrigin seg.joint.offset x seg.f_tip (seg.pose 0) hf (by
        unfold Segment.pose; rw [hp 0, mul_zero, zero_add])
      have hrhs : seg.pose x = ⟨1, seg.joint.jointOrigin + (x + seg.joint.offset) • seg.joint.jointAxis⟩ * seg.f_tip := by
        unfold Segment.pose; rw [hp x, hsc, one_mul]
      rw [hrhs, ← this]
      generalize (seg.pose 0).inv = Gi
      simp only [Segment.pose, Segment.mk', Joint.pose, Frame.ofVec]
      ext <;> simp
  · have hfx : seg.joint.type = .Fixed := by
      cases h : seg.joint.type <;> simp [h] at hr ht ⊢
    have hp : ∀ x, seg.joint.pose x = 1 := by intro x; simp [Joint.pose, hfx]
    refine ⟨Segment.mk' dst.name seg.joint (seg.pose 0).inv dst.I, ?_, rfl, rfl, ?_, ⟨?_, ?_⟩, ?_⟩
    · unfold Tree.reverseSegment
      simp only
      rw [if_neg hr, if_neg ht]
    · rfl
    · exact hj.1
    · simp only [Segment.mk', hp]
      exact Frame.IsProper.mul (Frame.IsProper.inv Frame.IsProper.one) hGi
    · intro x
      have h1 : (1 : Frame).inv = 1 := by ext <;> simp
      simp only [Segment.pose, Segment.mk', hp, h1, one_mul]

namespace Tree

/-! ### Paths -/

/-- `Path t n l`: `l` is the list of elements from just below the root down to `n`. -/
inductive Path (t : Tree) : String → List TreeElem → Prop
  | root {r : TreeElem} : t.find t.root_name = some r → Path t t.root_name []
  | step {n p : String} {e : TreeElem} {l : List TreeElem} : t.find n = some e → n ≠ t.root_name →
      e.parent = some p → Path t p l → Path t n (l ++ [e])

theorem exists_path {t : Tree} (ht : t.WF) : ∀ (i : ℕ) (e : TreeElem), t.segments[i]? = some e →
    ∃ l, Path t e.name l ∧ l.length ≤ i := by
  intro i
  induction i using Nat.strong_induction_on with
  | _ i ih =>
    intro e he
    by_cases hi : i = 0
    · obtain ⟨r, rest, h1, h2, h3, _⟩ := root_cons ht
      subst hi
      rw [h1] at he; simp at he; subst he
      exact ⟨[], h2 ▸ .root h3, by simp⟩
    · obtain ⟨j, p, h1, h2, h3⟩ := ht.parents i e he hi
      obtain ⟨l, hl, hlen⟩ := ih j h1 p h2
      refine ⟨l ++ [e], .step (find_of_get ht.nodup he) ?_ h3 hl, by simp; omega⟩
      intro hr
      obtain ⟨r, rest, k1, k2, k3, _⟩ := root_cons ht
      have := index_unique ht.nodup he (show t.segments[0]? = some r by rw [k1]; rfl) (by rw [hr, k2])
      exact hi this

theorem path_of_mem {t : Tree} (ht : t.WF) {n : String} (hn : n ∈ t.names) :
    ∃ l, Path t n l ∧ l.length < t.segments.length := by
  obtain ⟨e, he⟩ := mem_names.mp hn
  obtain ⟨h1, h2⟩ := find_some he
  obtain ⟨i, hi, hie⟩ := List.getElem_of_mem h1
  obtain ⟨l, hl, hlen⟩ := exists_path ht i e (by rw [List.getElem?_eq_getElem hi, hie])
  exact ⟨l, h2 ▸ hl, by omega⟩

theorem Path.unique {t : Tree} {n : String} {l m : List TreeElem} (hl : Path t n l) (hm : Path t n m) : l = m := by
  induction hl generalizing m with
  | root h =>
    generalize hn : t.root_name = n at hm
    cases hm with
    | root => rfl
    | step _ h2 => exact absurd hn.symm h2
  | step h1 h2 h3 _ ih =>
    cases hm with
    | root => exact absurd rfl h2
    | step k1 k2 k3 k4 =>
      rw [h1] at k1; cases k1
      rw [h3] at k3; cases k3
      rw [ih k4]

theorem Path.found {t : Tree} {n : String} {l : List TreeElem} (hl : Path t n l) : ∃ e, t.find n = some e := by
  cases hl with
  | root h => exact ⟨_, h⟩
  | step h => exact ⟨_, h⟩

theorem Path.mem {t : Tree} {n : String} {l : List TreeElem} (hl : Path t n l) : ∀ e ∈ l, e ∈ t.segments := by
  induction hl with
  | root => simp
  | step h1 _ _ _ ih =>
    intro x hx
    simp only [List.mem_append, List.mem_singleton] at hx
    rcases hx with hx | rfl
    · exact ih x hx
    · exact (find_some h1).1

theorem walkUp_eq {t : Tree} {n : String} {l : List TreeElem} (hl : Path t n l) : ∀ fuel, l.length < fuel →
    walkUp t fuel n = some (t.root_name :: l.map TreeElem.name) := by
  induction hl with
  | root h =>
    intro fuel hf
    obtain ⟨f, rfl⟩ : ∃ f, fuel = f + 1 := ⟨fuel - 1, by simp at hf; omega⟩
    simp [walkUp, h]
  | @step n p e l h1 h2 h3 _ ih =>
    intro fuel hf
    simp only [List.length_append, List.length_singleton] at hf
    obtain ⟨f, rfl⟩ : ∃ f, fuel = f + 1 := ⟨fuel - 1, by omega⟩
    rw [walkUp]
    simp only [h1]
    rw [if_neg h2]
    simp only [h3]
    rw [ih f (by omega)]
    simp [(find_some h1).2]

theorem walkUp_none {t : Tree} {n : String} (h : n ∉ t.names) (fuel : ℕ) : walkUp t (fuel + 1) n = some [] := by
  simp [walkUp, find_none.mpr h]

/-- Frame of the end of a path, joint values by number. -/
def fkP (q : ℕ → ℝ) (l : List TreeElem) : Frame := (l.map fun e => e.segment.pose (q e.q_nr)).prod

theorem fkP_append (q : ℕ → ℝ) (l m : List TreeElem) : fkP q (l ++ m) = fkP q l * fkP q m := by simp [fkP]

theorem isProper_fkP (q : ℕ → ℝ) (l : List TreeElem) (h : ∀ e ∈ l, e.segment.Valid) : (fkP q l).IsProper := by
  induction l with
  | nil => exact Frame.IsProper.one
  | cons e l ih =>
    simp only [fkP, List.map_cons, List.prod_cons]
    exact Frame.IsProper.mul (Segment.isProper_pose (h e (by simp)) _) (ih fun x hx => h x (by simp [hx]))

theorem q_nr_lt {t : Tree} (ht : t.Reach) (h0 : 0 < t.nrOfJoints) {e : TreeElem} (he : e ∈ t.segments) :
    e.q_nr < t.nrOfJoints := by
  have hw := ht.wf
  cases hm : e.moving with
  | true =>
    have : e.q_nr ∈ List.range t.nrOfJoints := by
      rw [← hw.numbering]; exact List.mem_map_of_mem (List.mem_filter.mpr ⟨he, hm⟩)
    simpa using this
  | false => rw [hw.fixed e he hm]; exact h0

theorem root_pose {t : Tree} (ht : t.WF) {r : TreeElem} (h : t.find t.root_name = some r) (x : ℝ) :
    r.segment.pose x = 1 := by
  obtain ⟨r', rest, k1, k2, k3, _⟩ := root_cons ht
  rw [h] at k3; cases k3
  obtain ⟨r', j1, j2, _⟩ := ht.root
  rw [k1] at j1; simp at j1; subst j1
  rw [j2]
  simp [Segment.pose, Segment.ofName, Joint.pose]

theorem recursiveFk_eq {t : Tree} (ht : t.Reach) (h0 : 0 < t.nrOfJoints) (q : List ℝ) (hq : q.length = t.nrOfJoints)
    {n : String} {l : List TreeElem} (hl : Path t n l) : ∀ fuel, l.length < fuel →
    recursiveFk t q fuel n = some (fkP (rd q) l) := by
  induction hl with
  | @root r h =>
    intro fuel hf
    obtain ⟨f, rfl⟩ : ∃ f, fuel = f + 1 := ⟨fuel - 1, by simp at hf; omega⟩
    have hlt := q_nr_lt ht h0 (find_some h).1
    rw [recursiveFk]
    simp only [h, Option.bind_eq_bind, Option.bind_some]
    rw [getElem?_eq_rd (by omega)]
    simp only [Option.bind_some, if_true]
    rw [root_pose ht.wf h]; rfl
  | @step n p e l h1 h2 h3 _ ih =>
    intro fuel hf
    simp only [List.length_append, List.length_singleton] at hf
    obtain ⟨f, rfl⟩ : ∃ f, fuel = f + 1 := ⟨fuel - 1, by omega⟩
    have hlt := q_nr_lt ht h0 (find_some h1).1
    rw [recursiveFk]
    simp only [h1, Option.bind_eq_bind, Option.bind_some]
    rw [getElem?_eq_rd (by omega)]
    simp only [Option.bind_some]
    rw [if_neg h2, h3]
    simp only [Option.bind_some]
    rw [ih f (by omega), fkP_append]
    simp [fkP]

/-! ### Extracted chains -/

theorem stripCommon_eq {t : Tree} (hn : t.names.Nodup) : ∀ (A B : List TreeElem) (last : String),
    (∀ e ∈ A, e ∈ t.segments) → (∀ e ∈ B, e ∈ t.segments) →
    ∃ C A' B', A = C ++ A' ∧ B = C ++ B' ∧ (∀ a b, A'.head? = some a → B'.head? = some b → a ≠ b) ∧
      stripCommon (A.map TreeElem.name) (B.map TreeElem.name) last =
        (A'.map TreeElem.name, B'.map TreeElem.name, (C.map TreeElem.name).getLast?.getD last) := by
  intro A
  induction A with
  | nil =>
    intro B last _ _
    exact ⟨[], [], B, rfl, rfl, by simp, by cases B <;> simp [stripCommon]⟩
  | cons a A ih =>
    intro B last hA hB
    cases B with
    | nil => exact ⟨[], a :: A, [], rfl, rfl, by simp, by simp [stripCommon]⟩
    | cons b B =>
      by_cases hab : a.name = b.name
      · have : a = b := List.inj_on_of_nodup_map hn (hA a (by simp)) (hB b (by simp)) hab
        subst this
        obtain ⟨C, A', B', h1, h2, h3, h4⟩ := ih B a.name (fun e he => hA e (by simp [he])) (fun e he => hB e (by simp [he]))
        refine ⟨a :: C, A', B', by rw [h1]; rfl, by rw [h2]; rfl, h3, ?_⟩
        simp only [List.map_cons, stripCommon, if_true]
        rw [h4]
        congr 2
        cases C <;> simp [List.getLast?_cons]
      · refine ⟨[], a :: A, b :: B, rfl, rfl, ?_, ?_⟩
        · intro x y hx hy
          simp at hx hy
          subst hx; subst hy
          rintro rfl; exact hab rfl
        · simp [stripCommon, hab]

/-- What a chain segment is compared with: whether it moves, the number of its joint, and its pose function. -/
structure Item where
  moves : Bool
  nr : ℕ
  pose : ℝ → Frame

/-- Chain segment realises the item. -/
def Item.Real (i : Item) (s : Segment) : Prop := s.moving = i.moves ∧ s.Valid ∧ ∀ x, s.pose x = i.pose x

/-- Joint values of the moving items in order. -/
def itemVals (q : ℕ → ℝ) (l : List Item) : List ℝ := (l.filter Item.moves).map fun i => q i.nr
/-- Product of the items' poses. -/
def itemPose (q : ℕ → ℝ) (l : List Item) : Frame := (l.map fun i => i.pose (q i.nr)).prod

theorem fixed_pose {s : Segment} (h : s.moving = false) (x y : ℝ) : s.pose x = s.pose y := by
  have : s.joint.type = .Fixed := by simpa [Segment.moving, Joint.moving] using h
  simp [Segment.pose, Joint.pose, this]

theorem fkF_items (q : ℕ → ℝ) : ∀ (l : List Item) (ss : List Segment), List.Forall₂ Item.Real l ss →
    ∀ pre : List ℝ, fkF (rd (pre ++ itemVals q l)) ss pre.length = itemPose q l := by
  intro l ss h
  induction h with
  | nil => intro pre; rfl
  | @cons i s l ss his _ ih =>
    intro pre
    obtain ⟨h1, _, h3⟩ := his
    simp only [itemPose, List.map_cons, List.prod_cons, fkF]
    cases hm : i.moves with
    | true =>
      rw [hm] at h1
      rw [if_pos h1]
      have hv : itemVals q (i :: l) = q i.nr :: itemVals q l := by simp [itemVals, hm]
      have := ih (pre ++ [q i.nr])
      simp only [List.append_assoc, List.singleton_append, List.length_append, List.length_singleton] at this
      rw [hv, this]
      congr 1
      rw [h3]
      congr 1
      simp [rd, List.getD]
    | false =>
      rw [hm] at h1
      rw [if_neg (by simp [h1])]
      have hv : itemVals q (i :: l) = itemVals q l := by simp [itemVals, hm]
      rw [hv, ih pre, ← h3, fixed_pose h1 (q i.nr) 0]
      rfl

theorem itemVals_length (q : ℕ → ℝ) : ∀ (l : List Item) (ss : List Segment), List.Forall₂ Item.Real l ss →
    (itemVals q l).length = nMoving ss := by
  intro l ss h
  induction h with
  | nil => rfl
  | @cons i s l ss his _ ih =>
    rw [nMoving_cons, ← ih, his.1]
    cases hm : i.moves <;> simp [itemVals, hm]

/-- Items of a walk against / along the tree. -/
def TreeElem.rev (e : TreeElem) : Item := ⟨e.moving, e.q_nr, fun x => (e.segment.pose x).inv⟩
def TreeElem.fwd (e : TreeElem) : Item := ⟨e.moving, e.q_nr, fun x => e.segment.pose x⟩

theorem wf_addSegment_chain {c : Chain} (h : c.WF) (s : Segment) : (c.addSegment s).WF := by
  obtain ⟨h1, h2⟩ := h
  refine ⟨by simp [Chain.addSegment, h1], ?_⟩
  simp only [Chain.addSegment, nMoving_append, nMoving_cons, nMoving_nil, h2]
  split_ifs <;> simp

theorem addReversed_eq {t : Tree} : ∀ (E : List TreeElem) (last : String) (c : Chain), c.WF →
    (∀ e ∈ E, t.find e.name = some e ∧ e.segment.joint.Made ∧ e.segment.f_tip.IsProper ∧
      (e.moving → e.segment.joint.scale = 1)) → (∃ x, t.find last = some x) →
    ∃ c' rs, addReversed t (E.map TreeElem.name ++ [last]) c = some c' ∧ c'.segments = c.segments ++ rs ∧ c'.WF ∧
      List.Forall₂ Item.Real (E.map TreeElem.rev) rs ∧
      rs.map Segment.name = (E.map TreeElem.name ++ [last]).tail := by
  intro E
  induction E with
  | nil =>
    intro last c hc _ _
    exact ⟨c, [], by simp [addReversed], by simp, hc, by simp, by simp⟩
  | cons e E ih =>
    intro last c hc hE hl
    obtain ⟨h1, h2, h3, h4⟩ := hE e (by simp)
    -- the next key
    have hnext : ∃ b rest, E.map TreeElem.name ++ [last] = b :: rest ∧ ∃ x, t.find b = some x := by
      cases E with
      | nil => exact ⟨last, [], rfl, hl⟩
      | cons e2 E2 => exact ⟨e2.name, _, rfl, _, (hE e2 (by simp)).1⟩
    obtain ⟨b, rest, hb, x, hx⟩ := hnext
    obtain ⟨s, k1, k2, _, k4, k5, k6⟩ := reverseSegment_pose e.segment x.segment h2 h3 h4
    obtain ⟨c', rs, j1, j2, j3, j4, j5⟩ := ih last (c.addSegment s) (wf_addSegment_chain hc s)
      (fun y hy => hE y (by simp [hy])) hl
    refine ⟨c', s :: rs, ?_, ?_, j3, ?_, ?_⟩
    · rw [List.map_cons, List.cons_append, hb]
      rw [hb] at j1
      simp only [addReversed, h1, hx, Option.bind_eq_bind, Option.bind_some, k1]
      exact j1
    · rw [j2]; simp [Chain.addSegment]
    · rw [List.map_cons]
      exact .cons ⟨k4, k5, k6⟩ j4
    · rw [List.map_cons, List.map_cons, List.cons_append, List.tail_cons, j5, hb]
      rw [k2, List.tail_cons]
      congr 1
      exact (find_some hx).2

theorem addForward_eq {t : Tree} : ∀ (E : List TreeElem) (c : Chain), c.WF → (∀ e ∈ E, t.find e.name = some e) →
    ∃ c', addForward t (E.map TreeElem.name) c = some c' ∧ c'.segments = c.segments ++ E.map TreeElem.segment ∧ c'.WF := by
  intro E
  induction E with
  | nil => intro c hc _; exact ⟨c, rfl, by simp, hc⟩
  | cons e E ih =>
    intro c hc hE
    obtain ⟨c', h1, h2, h3⟩ := ih (c.addSegment e.segment) (wf_addSegment_chain hc _) (fun y hy => hE y (by simp [hy]))
    refine ⟨c', ?_, ?_, h3⟩
    · simp only [List.map_cons, addForward, hE e (by simp), Option.bind_eq_bind, Option.bind_some]
      exact h1
    · rw [h2]; simp [Chain.addSegment]

theorem itemPose_append (q : ℕ → ℝ) (l m : List Item) : itemPose q (l ++ m) = itemPose q l * itemPose q m := by
  simp [itemPose]
theorem itemPose_fwd (q : ℕ → ℝ) (l : List TreeElem) : itemPose q (l.map TreeElem.fwd) = fkP q l := by
  simp [itemPose, fkP, TreeElem.fwd, Function.comp_def]
theorem itemPose_rev (q : ℕ → ℝ) (l : List TreeElem) (h : ∀ e ∈ l, e.segment.Valid) :
    itemPose q (l.reverse.map TreeElem.rev) = (fkP q l).inv := by
  induction l with
  | nil => simp [itemPose, fkP]; ext <;> simp
  | cons e l ih =>
    rw [List.reverse_cons, List.map_append, itemPose_append, ih (fun x hx => h x (by simp [hx]))]
    have hp := Segment.isProper_pose (h e (by simp)) (q e.q_nr)
    simp only [fkP, List.map_cons, List.prod_cons]
    rw [Frame.mul_inv hp]
    simp [itemPose, TreeElem.rev]

/-! ### Jacobian -/

theorem dsum_set (qd : ℕ → ℝ) (c : Twist) : ∀ (J : List Twist) (k j : ℕ), k < J.length → J.getD k 0 = 0 →
    dsum qd (J.set k c) j = dsum qd J j + qd (j + k) • c := by
  intro J
  induction J with
  | nil => intro k j hk; simp at hk
  | cons a J ih =>
    intro k j hk h0
    cases k with
    | zero =>
      simp only [List.getD_cons_zero] at h0
      subst h0
      simp [dsum, add_comm]
    | succ k =>
      simp only [List.getD_cons_succ] at h0
      simp only [List.set_cons_succ, dsum]
      rw [ih k (j + 1) (by simpa using hk) h0, show j + 1 + k = j + (k + 1) by omega, add_assoc (qd j • a)]

theorem dsum_changeBase' (qd : ℕ → ℝ) (R : Rot) : ∀ (J : List Twist) (j : ℕ),
    dsum qd (J.map fun t => R * t) j = R * dsum qd J j := by
  intro J
  induction J with
  | nil => intro j; simp only [List.map_nil, dsum]; ext <;> simp
  | cons a J ih =>
    intro j
    simp only [List.map_cons, dsum, ih]
    ext <;> simp <;> ring

/-- Twist of the end of the part `l` of a path. -/
def twP (q qd : ℕ → ℝ) : List TreeElem → Twist
  | [] => 0
  | e :: l => (e.segment.twist (q e.q_nr) (qd e.q_nr)).refPoint ((e.segment.pose (q e.q_nr)).M * (fkP q l).p) +
      (e.segment.pose (q e.q_nr)).M * twP q qd l

theorem twP_hasTwist {Q : ℝ → ℕ → ℝ} {qd : ℕ → ℝ} {τ : ℝ} (hq : JntHasDeriv Q qd τ) : ∀ (l : List TreeElem),
    (∀ e ∈ l, e.segment.Valid) → Frame.HasTwist (fun s => fkP (Q s) l) (twP (Q τ) qd l) τ := by
  -- peel the last element: use the product rule with the accumulated frame on the left
  have gen : ∀ (l : List TreeElem) (T : ℝ → Frame) (tw : Twist), (∀ e ∈ l, e.segment.Valid) → (T τ).IsProper →
      Frame.HasTwist T tw τ →
      Frame.HasTwist (fun s => T s * fkP (Q s) l) (tw.refPoint ((T τ).M * (fkP (Q τ) l).p) + (T τ).M * twP (Q τ) qd l) τ := by
    intro l
    induction l with
    | nil =>
      intro T tw _ _ hT
      have h1 : (fun s => T s * fkP (Q s) []) = T := by funext s; simp [fkP]
      rw [h1]
      have h2 : tw.refPoint ((T τ).M * (fkP (Q τ) []).p) + (T τ).M * twP (Q τ) qd [] = tw := by
        ext <;> simp [fkP, twP]
      rw [h2]; exact hT
    | cons e l ih =>
      intro T tw hv hP hT
      have hst := hT.mul_segment hP (hv e (by simp)).1 (hq e.q_nr)
      have hP' := Frame.IsProper.mul hP (Segment.isProper_pose (hv e (by simp)) (Q τ e.q_nr))
      have := ih (fun s => T s * e.segment.pose (Q s e.q_nr)) _ (fun x hx => hv x (by simp [hx])) hP' hst
      have h1 : (fun s => T s * fkP (Q s) (e :: l)) = fun s => (T s * e.segment.pose (Q s e.q_nr)) * fkP (Q s) l := by
        funext s; simp [fkP, mul_assoc]
      rw [h1]
      have h2 : ∀ a b : Twist, a = b → Frame.HasTwist (fun s => (T s * e.segment.pose (Q s e.q_nr)) * fkP (Q s) l) a τ →
          Frame.HasTwist (fun s => (T s * e.segment.pose (Q s e.q_nr)) * fkP (Q s) l) b τ := by rintro _ _ rfl h; exact h
      refine h2 _ _ ?_ this
      have h3 : (fkP (Q τ) (e :: l)).p = (e.segment.pose (Q τ e.q_nr)).M * (fkP (Q τ) l).p + (e.segment.pose (Q τ e.q_nr)).p := by
        simp [fkP]
      have hc : ∀ a b : Vec, (T τ).M * a * ((T τ).M * b) = (T τ).M * (a * b) := fun a b => Rot.IsProper.cross hP a b
      rw [h3]
      simp only [twP]
      generalize e.segment.twist (Q τ e.q_nr) (qd e.q_nr) = W
      generalize e.segment.pose (Q τ e.q_nr) = P
      generalize twP (Q τ) qd l = V
      generalize fkP (Q τ) l = F
      generalize T τ = T0 at hc
      ext1
      · simp only [Twist.add_vel, Twist.refPoint_vel, Twist.refPoint_rot, Twist.add_rot, Rot.twist_vel, Rot.twist_rot, Frame.mul_M, Frame.mul_p,
          Rot.app_add, Rot.mul_app, Vec.cross_add, Vec.add_cross, ← hc, Vec.cross_sub]
        abel
      · simp only [Twist.add_rot, Twist.refPoint_rot, Rot.twist_rot, Rot.app_add, Frame.mul_M, Rot.mul_app]
        abel
  intro l hv
  have h0 : Frame.HasTwist (fun _ : ℝ => (1 : Frame)) 0 τ := by
    constructor
    · exact Vec.HasDeriv.const _
    · exact Rot.HasAngVel.const _
  have := gen l (fun _ => 1) 0 hv Frame.IsProper.one h0
  have h1 : (fun s => (1 : Frame) * fkP (Q s) l) = fun s => fkP (Q s) l := by funext s; simp
  rw [h1] at this
  have h2 : (0 : Twist).refPoint ((1 : Frame).M * (fkP (Q τ) l).p) + (1 : Frame).M * twP (Q τ) qd l = twP (Q τ) qd l := by
    ext <;> simp
  rwa [h2] at this

theorem Path.index {t : Tree} (ht : t.WF) {n : String} {l : List TreeElem} (hl : Path t n l) :
    ∀ (i : ℕ) (x : TreeElem), t.segments[i]? = some x → x.name = n → ∀ e ∈ l, ∃ j, j ≤ i ∧ t.segments[j]? = some e := by
  induction hl with
  | root => simp
  | @step n p y l h1 h2 h3 _ ih =>
    intro i x hx hxn e he
    have hyx : y = x := by
      obtain ⟨k1, k2⟩ := find_some h1
      exact List.inj_on_of_nodup_map ht.nodup k1 (List.mem_of_getElem? hx) (by rw [k2, hxn])
    subst hyx
    simp only [List.mem_append, List.mem_singleton] at he
    rcases he with he | rfl
    · by_cases hi : i = 0
      · obtain ⟨r, rest, k1, k2, _, _⟩ := root_cons ht
        subst hi
        rw [k1] at hx; simp at hx; subst hx
        exact absurd (hxn.symm.trans k2) h2
      · obtain ⟨j, p', k1, k2, k3⟩ := ht.parents i y hx hi
        rw [k3] at h3; cases h3
        obtain ⟨j', h5, h6⟩ := ih j p' k2 rfl e he
        exact ⟨j', by omega, h6⟩
    · exact ⟨i, le_refl i, hx⟩

/-- The end of a path does not occur earlier on it. -/
theorem Path.not_mem {t : Tree} (ht : t.WF) {n p : String} {e : TreeElem} {l : List TreeElem} (h1 : t.find n = some e)
    (h2 : n ≠ t.root_name) (h3 : e.parent = some p) (hl : Path t p l) : e ∉ l := by
  intro hm
  obtain ⟨k1, k2⟩ := find_some h1
  obtain ⟨i, hi, hie⟩ := List.getElem_of_mem k1
  have hget : t.segments[i]? = some e := by rw [List.getElem?_eq_getElem hi, hie]
  by_cases hi0 : i = 0
  · obtain ⟨r, rest, m1, m2, _, _⟩ := root_cons ht
    subst hi0
    rw [m1] at hget; simp at hget; subst hget
    exact h2 (k2.symm.trans m2)
  · obtain ⟨j, p', m1, m2, m3⟩ := ht.parents i e hget hi0
    rw [m3] at h3; cases h3
    obtain ⟨j', m4, m5⟩ := hl.index ht j p' m2 rfl e hm
    have := index_unique ht.nodup m5 hget rfl
    omega

theorem q_nr_inj {t : Tree} (ht : t.WF) {a b : TreeElem} (ha : a ∈ t.segments) (hb : b ∈ t.segments)
    (hma : a.moving = true) (hmb : b.moving = true) (h : a.q_nr = b.q_nr) : a = b := by
  have hnd : ((t.segments.filter TreeElem.moving).map TreeElem.q_nr).Nodup := by
    rw [ht.numbering]; exact List.nodup_range
  exact List.inj_on_of_nodup_map hnd (List.mem_filter.mpr ⟨ha, hma⟩) (List.mem_filter.mpr ⟨hb, hmb⟩) h

theorem twist_fixed {s : Segment} (h : s.moving = false) (x y : ℝ) : s.twist x y = 0 := by
  have : s.joint.type = .Fixed := by simpa [Segment.moving, Joint.moving] using h
  simp [Segment.twist, Joint.twist, this]

theorem treeJacLoop_eq {t : Tree} (ht : t.Reach) (h0 : 0 < t.nrOfJoints) (q : List ℝ) (hq : q.length = t.nrOfJoints)
    (hv : ∀ e ∈ t.segments, e.segment.Valid) {n : String} {l : List TreeElem} (hl : Path t n l) :
    ∀ (fuel : ℕ) (m : List TreeElem) (J : Jac), l.length < fuel → J.length = t.nrOfJoints →
      (∀ e ∈ m, e.segment.Valid) →
      (∀ e ∈ l, e.moving = true → J.getD e.q_nr 0 = 0) →
      (∀ qd, dsum qd J 0 = (fkP (rd q) m).M.inv * twP (rd q) qd m) →
      ∃ J', treeJacLoop t q fuel n (fkP (rd q) m) J = some (fkP (rd q) (l ++ m), J') ∧ J'.length = t.nrOfJoints ∧
        (∀ qd, dsum qd J' 0 = (fkP (rd q) (l ++ m)).M.inv * twP (rd q) qd (l ++ m)) ∧
        ∀ k, (∀ e ∈ l, e.moving = true → e.q_nr ≠ k) → J'.getD k 0 = J.getD k 0 := by
  induction hl with
  | @root r h =>
    intro fuel m J hf hJ _ _ hsum
    obtain ⟨f, rfl⟩ : ∃ f, fuel = f + 1 := ⟨fuel - 1, by simp at hf; omega⟩
    exact ⟨J, by simp [treeJacLoop], hJ, by simpa using hsum, fun k _ => rfl⟩
  | @step n p e l h1 h2 h3 hp ih =>
    intro fuel m J hf hJ hm hz hsum
    simp only [List.length_append, List.length_singleton] at hf
    obtain ⟨f, rfl⟩ : ∃ f, fuel = f + 1 := ⟨fuel - 1, by omega⟩
    have hmem := (find_some h1).1
    have hlt := q_nr_lt ht h0 hmem
    have hve := hv e hmem
    have hP := Segment.isProper_pose hve (rd q e.q_nr)
    have hPm := isProper_fkP (rd q) m hm
    have hT' : e.segment.pose (rd q e.q_nr) * fkP (rd q) m = fkP (rd q) (e :: m) := by simp [fkP]
    have hPm' : (fkP (rd q) (e :: m)).IsProper := by rw [← hT']; exact hP.mul hPm
    have hsub : (fkP (rd q) (e :: m)).p - (e.segment.pose (rd q e.q_nr)).p =
        (e.segment.pose (rd q e.q_nr)).M * (fkP (rd q) m).p := by
      rw [← hT']; simp
    -- the twist of the longer part in tip coordinates
    have hstep : ∀ qd : ℕ → ℝ, (fkP (rd q) (e :: m)).M.inv * twP (rd q) qd (e :: m) =
        (fkP (rd q) (e :: m)).M.inv * (e.segment.twist (rd q e.q_nr) (qd e.q_nr)).refPoint
          ((e.segment.pose (rd q e.q_nr)).M * (fkP (rd q) m).p) + dsum qd J 0 := by
      intro qd
      rw [hsum qd]
      simp only [twP]
      have hM : (fkP (rd q) (e :: m)).M.inv = (fkP (rd q) m).M.inv * (e.segment.pose (rd q e.q_nr)).M.inv := by
        rw [← hT', Frame.mul_M, Rot.inv_mul]
      rw [hM]
      ext1
      · simp only [Rot.twist_vel, Twist.add_vel, Rot.app_add, Rot.mul_app]
        rw [Rot.IsProper.inv_app_app hP]
      · simp only [Rot.twist_rot, Twist.add_rot, Rot.app_add, Rot.mul_app]
        rw [Rot.IsProper.inv_app_app hP]
    have happ : l ++ [e] ++ m = l ++ (e :: m) := by simp
    cases hmv : e.moving with
    | true =>
      set col := (fkP (rd q) (e :: m)).M.inv * (e.segment.twist (rd q e.q_nr) 1).refPoint
        ((fkP (rd q) (e :: m)).p - (e.segment.pose (rd q e.q_nr)).p) with hcol
      have hJe := hz e (by simp) hmv
      obtain ⟨J', k1, k2, k3, k4⟩ := ih f (e :: m) (J.set e.q_nr col) (by omega) (by simpa using hJ)
        (by
          intro x hx
          simp only [List.mem_cons] at hx
          rcases hx with rfl | hx
          · exact hve
          · exact hm x hx)
        (by
          intro x hx hxm
          have hne : e.q_nr ≠ x.q_nr := by
            intro hh
            have := q_nr_inj ht.wf hmem (hp.mem x hx) hmv hxm hh
            exact Path.not_mem ht.wf h1 h2 h3 hp (this ▸ hx)
          rw [List.getD_eq_getElem?_getD, List.getElem?_set_ne hne, ← List.getD_eq_getElem?_getD]
          exact hz x (by simp [hx]) hxm)
        (by
          intro qd
          rw [hstep, dsum_set qd col J e.q_nr 0 (by omega) hJe, add_comm, Nat.zero_add]
          congr 1
          rw [hcol, hsub, Segment.twist_eq_smul _ _ (qd e.q_nr), Twist.smul_refPoint]
          ext1
          · simp only [Rot.twist_vel, Twist.smul_vel, Rot.app_smul]
          · simp only [Rot.twist_rot, Twist.smul_rot, Rot.app_smul])
      refine ⟨J', ?_, k2, ?_, ?_⟩
      · rw [treeJacLoop, if_neg h2]
        simp only [h1, Option.bind_eq_bind, Option.bind_some]
        rw [getElem?_eq_rd (by omega)]
        simp only [Option.bind_some, hmv, if_true, hT', Jac.setColumn]
        rw [if_pos (by omega)]
        simp only [Option.bind_some, h3, happ]
        exact k1
      · rw [happ]; exact k3
      · intro k hk
        have hne : e.q_nr ≠ k := hk e (by simp) hmv
        rw [k4 k (fun x hx => hk x (by simp [hx])), List.getD_eq_getElem?_getD, List.getElem?_set_ne hne,
          ← List.getD_eq_getElem?_getD]
    | false =>
      obtain ⟨J', k1, k2, k3, k4⟩ := ih f (e :: m) J (by omega) hJ
        (by
          intro x hx
          simp only [List.mem_cons] at hx
          rcases hx with rfl | hx
          · exact hve
          · exact hm x hx)
        (fun x hx hxm => hz x (by simp [hx]) hxm)
        (by
          intro qd
          rw [hstep, twist_fixed hmv, Twist.zero_refPoint]
          have : (fkP (rd q) (e :: m)).M.inv * (0 : Twist) = 0 := by ext <;> simp
          rw [this, zero_add])
      refine ⟨J', ?_, k2, ?_, ?_⟩
      · rw [treeJacLoop, if_neg h2]
        simp only [h1, Option.bind_eq_bind, Option.bind_some]
        rw [getElem?_eq_rd (by omega)]
        simp only [Option.bind_some, hmv, Bool.false_eq_true, if_false, hT', h3, happ]
        exact k1
      · rw [happ]; exact k3
      · intro k hk
        exact k4 k (fun x hx => hk x (by simp [hx]))

end Tree
end KDL
