import Verif.Lemmas.Chain

/-! C24: bookkeeping of `Chain`. -/

namespace KDL

/-- Chains built by the public operations from well-typed sources (no aliasing of source and destination, no
replacement of a segment by one of different mobility through the mutable reference). -/
inductive Chain.Reach : Chain → Prop
  | empty : Reach Chain.empty
  | addSegment {c} (s : Segment) : Reach c → Reach (c.addSegment s)
  | addChain {c d e} : Reach c → Reach d → c.addChain d = some e → Reach e
  | copy {d e} : Reach d → Chain.copy d = some e → Reach e
  | assign {c d e} : Reach c → Reach d → Chain.assign c d = some e → Reach e
  | setFrameToTip {c} (i : ℕ) (s : Segment) (f : Frame) : Reach c → c.getSegment i = some s →
      Reach (c.setSegment i (s.setFrameToTip f))
  | setInertia {c} (i : ℕ) (s : Segment) (I : RBI) : Reach c → c.getSegment i = some s →
      Reach (c.setSegment i { s with I := I })

theorem Chain.wf_addSegment {c : Chain} (h : c.WF) (s : Segment) : (c.addSegment s).WF := by
  obtain ⟨h1, h2⟩ := h
  refine ⟨by simp [Chain.addSegment, h1], ?_⟩
  simp only [Chain.addSegment, nMoving_append, nMoving_cons, nMoving_nil, h2]
  split <;> simp

/-- The copying loop appends the remaining segments, in order, and never reads out of bounds. -/
theorem Chain.addFrom_spec (src : Chain) : ∀ (n i : ℕ) (c : Chain), i + n = src.segments.length →
    ∃ e, Chain.addFrom c src i n = some e ∧ e.segments = c.segments ++ src.segments.drop i ∧
      (c.WF → e.WF) := by
  intro n
  induction n with
  | zero =>
    intro i c h
    refine ⟨c, rfl, ?_, id⟩
    rw [List.drop_eq_nil_of_le (by omega)]; simp
  | succ n ih =>
    intro i c h
    have hi : i < src.segments.length := by omega
    obtain ⟨e, h1, h2, h3⟩ := ih (i + 1) (c.addSegment src.segments[i]) (by omega)
    refine ⟨e, ?_, ?_, fun hc => h3 (Chain.wf_addSegment hc _)⟩
    · simp [Chain.addFrom, Chain.getSegment, hi, h1]
    · rw [h2, List.drop_eq_getElem_cons hi]; simp [Chain.addSegment]

theorem Chain.wf_setSegment {c : Chain} (h : c.WF) (i : ℕ) (s t : Segment) (hs : c.getSegment i = some s)
    (hm : t.moving = s.moving) : (c.setSegment i t).WF := by
  obtain ⟨h1, h2⟩ := h
  refine ⟨by simp [Chain.setSegment, h1], ?_⟩
  simp only [Chain.setSegment, h2]
  unfold Chain.getSegment at hs
  clear h1 h2
  generalize c.segments = l at hs ⊢
  induction l generalizing i with
  | nil => simp
  | cons a l ih =>
    cases i with
    | zero =>
      simp only [List.getElem?_cons_zero, Option.some.injEq] at hs
      simp only [List.set_cons_zero, nMoving_cons, hm, hs]
    | succ i =>
      simp only [List.getElem?_cons_succ] at hs
      simp only [List.set_cons_succ, nMoving_cons, ih i hs]

/-- Counters are right after every sequence of operations. -/
theorem C24_invariant (c : Chain) (h : c.Reach) : c.WF := by
  induction h with
  | empty => exact ⟨rfl, rfl⟩
  | addSegment s _ ih => exact Chain.wf_addSegment ih s
  | addChain _ _ he ih1 ih2 =>
    rename_i c d e _ _
    obtain ⟨e', h1, _, h3⟩ := Chain.addFrom_spec d d.nrOfSegments 0 c (by rw [ih2.1]; omega)
    unfold Chain.addChain at he
    rw [h1] at he; cases he; exact h3 ih1
  | copy _ he ih =>
    rename_i d e _
    obtain ⟨e', h1, _, h3⟩ := Chain.addFrom_spec d d.nrOfSegments 0 Chain.empty (by rw [ih.1]; omega)
    unfold Chain.copy at he
    rw [h1] at he; cases he; exact h3 ⟨rfl, rfl⟩
  | assign _ _ he _ ih =>
    rename_i c d e _ _ _
    obtain ⟨e', h1, _, h3⟩ := Chain.addFrom_spec d d.nrOfSegments 0 Chain.empty (by rw [ih.1]; omega)
    unfold Chain.assign at he
    rw [h1] at he; cases he; exact h3 ⟨rfl, rfl⟩
  | setFrameToTip i s f _ hs ih => exact Chain.wf_setSegment ih i s _ hs rfl
  | setInertia i s I _ hs ih => exact Chain.wf_setSegment ih i s _ hs rfl

/-- Appending a different chain never fails and concatenates the segment lists; the joint counts add up. -/
theorem C24_addChain (c d : Chain) (hc : c.WF) (hd : d.WF) :
    ∃ e, c.addChain d = some e ∧ e.segments = c.segments ++ d.segments ∧
      e.nrOfSegments = c.nrOfSegments + d.nrOfSegments ∧ e.nrOfJoints = c.nrOfJoints + d.nrOfJoints := by
  obtain ⟨e, h1, h2, h3⟩ := Chain.addFrom_spec d d.nrOfSegments 0 c (by rw [hd.1]; omega)
  have hw := h3 hc
  simp only [List.drop_zero] at h2
  refine ⟨e, h1, h2, ?_, ?_⟩
  · rw [hw.1, h2, List.length_append, hc.1, hd.1]
  · rw [hw.2, h2, nMoving_append, hc.2, hd.2]
/-- Copying and assigning (a different object) preserve everything. -/
theorem C24_copy (c d : Chain) (hd : d.WF) : d.copy = some d ∧ Chain.assign c d = some d := by
  obtain ⟨e, h1, h2, h3⟩ := Chain.addFrom_spec d d.nrOfSegments 0 Chain.empty (by rw [hd.1]; omega)
  have hw := h3 ⟨rfl, rfl⟩
  have hs : e.segments = d.segments := by simpa [Chain.empty] using h2
  have : e = d := by
    ext1
    · rw [hw.2, hd.2, hs]
    · rw [hw.1, hd.1, hs]
    · exact hs
  subst this
  exact ⟨h1, h1⟩
/-- Valid segments in, valid segments out. -/
theorem C24_valid (c d e : Chain) (hd : d.WF) (hc : c.Valid) (hv : d.Valid) (h : c.addChain d = some e) :
    e.Valid := by
  obtain ⟨e', h1, h2, _⟩ := Chain.addFrom_spec d d.nrOfSegments 0 c (by rw [hd.1]; omega)
  unfold Chain.addChain at h
  rw [h1] at h; cases h
  intro s hs
  rw [h2, List.drop_zero, List.mem_append] at hs
  exact hs.elim (hc s) (hv s)

/-- **Violation.**  Assigning a chain to itself empties it. -/
theorem C24_self_assign_violated (c : Chain) : c.assignSelf = some Chain.empty := by
  simp [Chain.assignSelf, Chain.addFrom, Chain.empty]
/-- **Violation.**  Appending a non-empty chain to itself never terminates: after any number of iterations the loop
condition still holds. -/
theorem C24_self_addChain_violated (c : Chain) (h : c.WF) (hne : 0 < c.nrOfSegments) (n : ℕ) :
    ∃ c', (Nat.iterate (fun o => o.bind Chain.addChainSelfStep) n (some (c, 0))) = some (c', n) ∧
      n < c'.nrOfSegments := by
  suffices H : ∃ c', (Nat.iterate (fun o => o.bind Chain.addChainSelfStep) n (some (c, 0))) = some (c', n) ∧
      c'.WF ∧ c'.nrOfSegments = c.nrOfSegments + n by
    obtain ⟨c', h1, _, h3⟩ := H
    exact ⟨c', h1, by omega⟩
  induction n with
  | zero => exact ⟨c, rfl, h, rfl⟩
  | succ n ih =>
    obtain ⟨c', h1, h2, h3⟩ := ih
    have hlt : n < c'.segments.length := by rw [← h2.1]; omega
    refine ⟨c'.addSegment c'.segments[n], ?_, Chain.wf_addSegment h2 _, ?_⟩
    · rw [Function.iterate_succ_apply', h1]
      simp only [Option.bind_some, Chain.addChainSelfStep, h3, show n < c.nrOfSegments + n by omega, if_true,
        Chain.getSegment, List.getElem?_eq_getElem hlt]
    · simp [Chain.addSegment, h3]; omega
/-- **Violation.**  Replacing a segment through the mutable reference leaves a stale joint count. -/
theorem C24_mutable_segment_violated :
    ∃ (c : Chain) (s : Segment), c.Reach ∧ (c.getSegment 0).isSome ∧ ¬ (c.setSegment 0 s).WF := by
  refine ⟨Chain.empty.addSegment ⟨"a", ⟨"j", .Fixed, 1, 0, 0, 0, 0, 0, 0⟩, RBI.zero, 1⟩,
    ⟨"b", ⟨"j", .RotZ, 1, 0, 0, 0, 0, 0, 0⟩, RBI.zero, 1⟩, .addSegment _ .empty, rfl, ?_⟩
  rintro ⟨_, h⟩
  simp [Chain.empty, Chain.addSegment, Chain.setSegment, Segment.moving, Joint.moving, nMoving] at h

/-- The part of the full statement that holds, in one place (missing: self-assignment and self-append, refuted above). -/
theorem C24_all_partial (c d : Chain) (hc : c.Reach) (hd : d.Reach) :
    c.WF ∧ d.copy = some d ∧ Chain.assign c d = some d ∧ ∃ e, c.addChain d = some e ∧ e.Reach ∧
      e.segments = c.segments ++ d.segments := by
  obtain ⟨e, h1, h2, _, _⟩ := C24_addChain c d (C24_invariant c hc) (C24_invariant d hd)
  exact ⟨C24_invariant c hc, (C24_copy c d (C24_invariant d hd)).1, (C24_copy c d (C24_invariant d hd)).2, e, h1,
    .addChain hc hd h1, h2⟩

/-- Non-vacuity: a two-segment chain with one joint. -/
example : ∃ c : Chain, c.Reach ∧ c.nrOfSegments = 2 ∧ c.nrOfJoints = 1 :=
  ⟨(Chain.empty.addSegment ⟨"a", ⟨"j", .Fixed, 1, 0, 0, 0, 0, 0, 0⟩, RBI.zero, 1⟩).addSegment
    ⟨"b", ⟨"j", .RotZ, 1, 0, 0, 0, 0, 0, 0⟩, RBI.zero, 1⟩, .addSegment _ (.addSegment _ .empty), rfl, rfl⟩

end KDL
