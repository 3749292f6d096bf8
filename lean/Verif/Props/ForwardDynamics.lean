import Verif.Props.Dynamics

/-! C42 (forward dynamics inverts inverse dynamics), C44 (update protocol of the forward dynamics solver). -/

noncomputable section
namespace KDL
open Finset

/-! ## auxiliary -/

theorem ldl_unique {n : ℕ} {A : ℕ → ℕ → ℝ} (hP : PosDefOn n A) {x y : ℕ → ℝ}
    (h : ∀ i < n, ∑ j ∈ range n, A i j * x j = ∑ j ∈ range n, A i j * y j) : ∀ i < n, x i = y i := by
  by_contra hc
  push Not at hc
  obtain ⟨i, hi, hne⟩ := hc
  have := hP (fun i => x i - y i) ⟨i, hi, sub_ne_zero.mpr hne⟩
  refine absurd this (not_lt.mpr (le_of_eq ?_))
  refine sum_eq_zero fun i hi => ?_
  have e := h i (by simpa using hi)
  calc ∑ j ∈ range n, (x i - y i) * A i j * (x j - y j)
      = (x i - y i) * (∑ j ∈ range n, A i j * x j - ∑ j ∈ range n, A i j * y j) := by
        rw [← sum_sub_distrib, mul_sum]; exact sum_congr rfl fun j _ => by ring
    _ = 0 := by rw [e, sub_self, mul_zero]

theorem range_map_getD (n : ℕ) (f : ℕ → ℝ) (i : ℕ) (hi : i < n) : ((List.range n).map f).getD i 0 = f i := by
  simp [hi]

/-- Shape of a forward dynamics call on a freshly constructed solver. -/
theorem fdRne_eq (c : Chain) (grav : Vec) (q qd τ : List ℝ) (fext : List Wrench) (qdd0 : List ℝ) (H0 : ℕ → ℕ → ℝ)
    (T0 : ℕ → ℝ) (L0 : LDL) (r0 x0 : ℕ → ℝ) (hq : q.length = c.nrOfJoints) (hqd : qd.length = c.nrOfJoints)
    (hqdd : qdd0.length = c.nrOfJoints) (hτ : τ.length = c.nrOfJoints) (hf : fext.length = c.nrOfSegments) (H : JMat)
    (T : List ℝ) (e1 : (DynState.new c grav).mass c q ⟨c.nrOfJoints, H0⟩ = some (E_NOERROR, H))
    (e2 : idRne c c.nrOfJoints c.nrOfSegments grav q qd (List.replicate c.nrOfJoints 0) fext
      ((List.range c.nrOfJoints).map T0) = some (E_NOERROR, T)) :
    fdRne (.new c grav) c q qd τ fext qdd0 H0 T0 L0 r0 x0 =
      match ldlSolve c.nrOfJoints H.d (fun i => τ.getD i 0 - T.getD i 0) L0 r0 x0 with
      | none => some .nan
      | some (x, _) => some (.ret E_NOERROR ((List.range c.nrOfJoints).map x)) := by
  have a1 : (FdState.new c grav).dyn.mass c q ⟨(FdState.new c grav).work, H0⟩ = some (E_NOERROR, H) := e1
  have a2 : idRne c (FdState.new c grav).id.1 (FdState.new c grav).id.2 (FdState.new c grav).dyn.grav q qd
    (List.replicate (FdState.new c grav).nj 0) fext ((List.range (FdState.new c grav).work).map T0) = some (E_NOERROR, T) := e2
  unfold fdRne
  rw [if_neg (by simp [FdState.new]), if_neg (by simp [FdState.new, hq, hqd, hqdd, hτ, hf])]
  simp only [a1, a2, Option.bind_eq_bind, Option.bind_some]
  rw [if_neg (by simp [E_NOERROR]), if_neg (by simp [E_NOERROR]), if_neg (by simp [FdState.new])]
  rfl

/-! ## C42 -/

/-- Forward dynamics followed by inverse dynamics is the identity on torques: the accelerations returned for `τ` need
exactly the torques `τ`.  This holds whenever the solver does not run into a zero pivot … -/
theorem C42_id_of_fd (c : Chain) (hc : c.WF) (hv : c.Valid) (hI : c.SymmI) (grav : Vec) (q qd τ : List ℝ)
    (fext : List Wrench) (qdd0 τ0 : List ℝ) (H0 : ℕ → ℕ → ℝ) (T0 : ℕ → ℝ) (L0 : LDL) (r0 x0 : ℕ → ℝ)
    (hq : q.length = c.nrOfJoints) (hqd : qd.length = c.nrOfJoints) (hqdd : qdd0.length = c.nrOfJoints)
    (hτ : τ.length = c.nrOfJoints) (hf : fext.length = c.nrOfSegments) (hτ0 : τ0.length = c.nrOfJoints)
    (code : Int) (qdd : List ℝ)
    (h : fdRne (.new c grav) c q qd τ fext qdd0 H0 T0 L0 r0 x0 = some (.ret code qdd)) :
    code = E_NOERROR ∧ qdd.length = c.nrOfJoints ∧
    idRne c c.nrOfJoints c.nrOfSegments grav q qd qdd fext τ0 = some (E_NOERROR, τ) := by
  -- the split of the torques at zero acceleration
  obtain ⟨T, H, C, G, a1, a2, a3, a4, a5, _, _, a8, a9⟩ := C39_decomposition c hc hv hI grav q qd
    (List.replicate c.nrOfJoints 0) fext ((List.range c.nrOfJoints).map T0) τ0 τ0 ⟨c.nrOfJoints, H0⟩ hq hqd (by simp) hf
    (by simp) hτ0 hτ0 rfl
  rw [fdRne_eq c grav q qd τ fext qdd0 H0 T0 L0 r0 x0 hq hqd hqdd hτ hf H T a2 a1] at h
  cases hs : ldlSolve c.nrOfJoints H.d (fun i => τ.getD i 0 - T.getD i 0) L0 r0 x0 with
  | none => simp only [hs] at h; cases h
  | some p =>
    obtain ⟨x, r⟩ := p
    simp only [hs, Option.some.injEq, FdResult.ret.injEq] at h
    obtain ⟨rfl, rfl⟩ := h
    have hsym := fun i hi j hj => C40_symmetric c hc hv hI q hq grav ⟨c.nrOfJoints, H0⟩ H rfl a2 i j hi hj
    have hx := (C41_solve _ _ hsym _ _ _ _ _ _ hs).1
    refine ⟨rfl, by simp, ?_⟩
    obtain ⟨τ', H', C', G', b1, b2, b3, b4, b5, _, _, b8, b9⟩ := C39_decomposition c hc hv hI grav q qd
      ((List.range c.nrOfJoints).map x) fext τ0 τ0 τ0 ⟨c.nrOfJoints, H0⟩ hq hqd (by simp) hf hτ0 hτ0 hτ0 rfl
    rw [a2] at b2; cases b2
    rw [a3] at b3; cases b3
    rw [a4] at b4; cases b4
    rw [b1]
    have : τ' = τ := by
      refine List.ext_getElem (by rw [b5, hτ]) fun k h1 h2 => ?_
      have hk : k < c.nrOfJoints := by rw [← b5]; exact h1
      have e1 := b9 k hk
      have e2 := a9 k hk
      have e3 := hx k hk
      have z : ∑ l ∈ range c.nrOfJoints, H.d k l * (List.replicate c.nrOfJoints (0:ℝ)).getD l 0 = 0 := by
        refine sum_eq_zero fun l hl => ?_
        have : (List.replicate c.nrOfJoints (0:ℝ)).getD l 0 = 0 := by
          simp only [List.getD_eq_getElem?_getD, List.getElem?_replicate]; split_ifs <;> rfl
        rw [this, mul_zero]
      have y : ∑ l ∈ range c.nrOfJoints, H.d k l * ((List.range c.nrOfJoints).map x).getD l 0 =
          ∑ l ∈ range c.nrOfJoints, H.d k l * x l :=
        sum_congr rfl fun l hl => by rw [range_map_getD _ _ _ (by simpa using hl)]
      rw [z] at e2
      rw [y, e3] at e1
      have g1 : τ'.getD k 0 = τ'[k] := by simp [h1]
      have g2 : τ.getD k 0 = τ[k] := by simp [h2]
      rw [g1, g2, e2] at e1
      linarith
    rw [this]

/-- … and for a chain without massless degrees of freedom it never does: the solver always returns `E_NOERROR`. -/
theorem C42_total (c : Chain) (hc : c.WF) (hv : c.Valid) (hI : c.SymmI) (hM : c.Massive) (grav : Vec) (q qd τ : List ℝ)
    (fext : List Wrench) (qdd0 : List ℝ) (H0 : ℕ → ℕ → ℝ) (T0 : ℕ → ℝ) (L0 : LDL) (r0 x0 : ℕ → ℝ)
    (hq : q.length = c.nrOfJoints) (hqd : qd.length = c.nrOfJoints) (hqdd : qdd0.length = c.nrOfJoints)
    (hτ : τ.length = c.nrOfJoints) (hf : fext.length = c.nrOfSegments) :
    ∃ qdd, fdRne (.new c grav) c q qd τ fext qdd0 H0 T0 L0 r0 x0 = some (.ret E_NOERROR qdd) := by
  obtain ⟨H, e1, hP⟩ := C40_posdef c hc hv hI hM q hq grav ⟨c.nrOfJoints, H0⟩ rfl
  have e2 := idRne_eq c hc grav q qd (List.replicate c.nrOfJoints 0) fext ((List.range c.nrOfJoints).map T0) hq hqd (by simp)
    (by simp) hf
  rw [fdRne_eq c grav q qd τ fext qdd0 H0 T0 L0 r0 x0 hq hqd hqdd hτ hf H _ e1 e2]
  have hsym := fun i hi j hj => C40_symmetric c hc hv hI q hq grav ⟨c.nrOfJoints, H0⟩ H rfl e1 i j hi hj
  obtain ⟨x, r, hs, _⟩ := C41_posdef _ _ hsym hP (fun i => τ.getD i 0 -
    ((rneF (rd q) (rd qd) (rd (List.replicate c.nrOfJoints 0)) c.segments fext 0 0 (-⟨grav, 0⟩)).1).getD i 0) L0 r0 x0
  rw [hs]
  exact ⟨_, rfl⟩

/-- Inverse dynamics followed by forward dynamics is the identity on accelerations, for chains without massless degrees
of freedom. -/
theorem C42_fd_of_id (c : Chain) (hc : c.WF) (hv : c.Valid) (hI : c.SymmI) (hM : c.Massive) (grav : Vec)
    (q qd qdd : List ℝ) (fext : List Wrench) (qdd0 τ0 : List ℝ) (H0 : ℕ → ℕ → ℝ) (T0 : ℕ → ℝ) (L0 : LDL) (r0 x0 : ℕ → ℝ)
    (hq : q.length = c.nrOfJoints) (hqd : qd.length = c.nrOfJoints) (hqdd : qdd.length = c.nrOfJoints)
    (hqdd0 : qdd0.length = c.nrOfJoints) (hf : fext.length = c.nrOfSegments) (hτ0 : τ0.length = c.nrOfJoints) :
    ∃ τ, idRne c c.nrOfJoints c.nrOfSegments grav q qd qdd fext τ0 = some (E_NOERROR, τ) ∧
      fdRne (.new c grav) c q qd τ fext qdd0 H0 T0 L0 r0 x0 = some (.ret E_NOERROR qdd) := by
  obtain ⟨τ, H, C, G, a1, a2, a3, a4, a5, _, _, a8, a9⟩ := C39_decomposition c hc hv hI grav q qd qdd fext τ0 τ0 τ0
    ⟨c.nrOfJoints, H0⟩ hq hqd hqdd hf hτ0 hτ0 hτ0 rfl
  refine ⟨τ, a1, ?_⟩
  obtain ⟨qdd', e⟩ := C42_total c hc hv hI hM grav q qd τ fext qdd0 H0 T0 L0 r0 x0 hq hqd hqdd0 a5 hf
  obtain ⟨_, l, b1⟩ := C42_id_of_fd c hc hv hI grav q qd τ fext qdd0 τ0 H0 T0 L0 r0 x0 hq hqd hqdd0 a5 hf hτ0 _ _ e
  obtain ⟨τ', H', C', G', b1', b2, b3, b4, b5, _, _, b8, b9⟩ := C39_decomposition c hc hv hI grav q qd qdd' fext τ0 τ0 τ0
    ⟨c.nrOfJoints, H0⟩ hq hqd l hf hτ0 hτ0 hτ0 rfl
  rw [b1] at b1'; cases b1'
  rw [a2] at b2; cases b2
  rw [a3] at b3; cases b3
  rw [a4] at b4; cases b4
  obtain ⟨H', e1, hP⟩ := C40_posdef c hc hv hI hM q hq grav ⟨c.nrOfJoints, H0⟩ rfl
  rw [a2] at e1; cases e1
  have := ldl_unique hP (x := fun l => qdd'.getD l 0) (y := fun l => qdd.getD l 0) fun k hk => by
    have := a9 k hk
    have := b9 k hk
    linarith
  have : qdd' = qdd := by
    refine List.ext_getElem (by rw [l, hqdd]) fun k h1 h2 => ?_
    have := this k (by rw [← l]; exact h1)
    simpa [h1, h2] using this
  rw [e, this]

/-- Outcomes of the wrong calls. -/
theorem C42_errors (s : FdState) (c : Chain) (q qd τ : List ℝ) (fext : List Wrench) (qdd0 : List ℝ) (H0 : ℕ → ℕ → ℝ)
    (T0 : ℕ → ℝ) (L0 : LDL) (r0 x0 : ℕ → ℝ) :
    ((s.nj ≠ c.nrOfJoints ∨ s.ns ≠ c.nrOfSegments) →
      fdRne s c q qd τ fext qdd0 H0 T0 L0 r0 x0 = some (.ret E_NOT_UP_TO_DATE qdd0)) ∧
    (s.nj = c.nrOfJoints → s.ns = c.nrOfSegments →
      (q.length ≠ s.nj ∨ qd.length ≠ s.nj ∨ qdd0.length ≠ s.nj ∨ τ.length ≠ s.nj ∨ fext.length ≠ s.ns) →
      fdRne s c q qd τ fext qdd0 H0 T0 L0 r0 x0 = some (.ret E_SIZE_MISMATCH qdd0)) := by
  refine ⟨fun h => by unfold fdRne; rw [if_pos h], fun h1 h2 h => ?_⟩
  unfold fdRne; rw [if_neg (by tauto), if_pos h]

example (a b : ℝ) : ∃ qdd, fdRne (.new exChain ⟨0, 0, -9.81⟩) exChain [a, b] [1, 2] [3, 4] [0, 0, 0] [0, 0] (fun _ _ => 7)
    (fun _ => 7) ⟨fun _ _ => 7, fun _ => 7⟩ (fun _ => 7) (fun _ => 7) = some (.ret 0 qdd) := by
  obtain ⟨h1, h2, h3, h4⟩ := exChain_ok
  exact C42_total exChain h1 h2 h3 h4 _ _ _ _ _ _ _ _ _ _ _ rfl rfl rfl rfl rfl

/-! ## C44 -/

/-- Full statement: after the chain was changed and `updateInternalDataStructures()` was called, the solver behaves like a
freshly constructed one. -/
def FdUpdateWorks : Prop :=
  ∀ (c c' : Chain) (grav : Vec) (q qd τ : List ℝ) (fext : List Wrench) (qdd0 : List ℝ) (H0 : ℕ → ℕ → ℝ) (T0 : ℕ → ℝ)
    (L0 : LDL) (r0 x0 : ℕ → ℝ), c.WF → c'.WF →
    fdRne ((FdState.new c grav).update c') c' q qd τ fext qdd0 H0 T0 L0 r0 x0 =
      fdRne (.new c' grav) c' q qd τ fext qdd0 H0 T0 L0 r0 x0

/-- The code: once the number of joints or segments has changed, the call after the update reports that the solver is not
up to date, for all arguments of the right size — and updating again does not help. -/
theorem C44_stale (c c' : Chain) (grav : Vec) (q qd τ : List ℝ) (fext : List Wrench) (qdd0 : List ℝ)
    (H0 : ℕ → ℕ → ℝ) (T0 : ℕ → ℝ) (L0 : LDL) (r0 x0 : ℕ → ℝ)
    (hne : c'.nrOfJoints ≠ c.nrOfJoints ∨ c'.nrOfSegments ≠ c.nrOfSegments)
    (hq : q.length = c'.nrOfJoints) (hqd : qd.length = c'.nrOfJoints) (hqdd : qdd0.length = c'.nrOfJoints)
    (hτ : τ.length = c'.nrOfJoints) (hf : fext.length = c'.nrOfSegments) :
    fdRne ((FdState.new c grav).update c') c' q qd τ fext qdd0 H0 T0 L0 r0 x0 = some (.ret E_NOT_UP_TO_DATE qdd0) ∧
    ((FdState.new c grav).update c').update c' = (FdState.new c grav).update c' := by
  refine ⟨?_, rfl⟩
  unfold fdRne
  rw [if_neg (by simp [FdState.update]), if_neg (by simp [FdState.update, hq, hqd, hqdd, hτ, hf])]
  have : ((FdState.new c grav).update c').dyn.mass c' q ⟨((FdState.new c grav).update c').work, H0⟩ =
      some (E_NOT_UP_TO_DATE, ⟨((FdState.new c grav).update c').work, H0⟩) := by
    apply (C40_errors _ _ _ _).1
    simp only [FdState.update, FdState.new, DynState.new]
    exact hne.imp Ne.symm Ne.symm
  simp only [this, Option.bind_eq_bind, Option.bind_some]
  rw [if_pos (by simp [E_NOT_UP_TO_DATE])]

/-- The property is violated: growing an empty chain by one link. -/
theorem C44_update_violated : ¬ FdUpdateWorks := by
  intro h
  have hM : exChain.WF ∧ exChain.Valid ∧ exChain.SymmI ∧ exChain.Massive := exChain_ok
  obtain ⟨h1, h2, h3, h4⟩ := hM
  have := h Chain.empty exChain 0 [0, 0] [0, 0] [0, 0] [0, 0, 0] [0, 0] (fun _ _ => 0) (fun _ => 0)
    ⟨fun _ _ => 0, fun _ => 0⟩ (fun _ => 0) (fun _ => 0) ⟨rfl, rfl⟩ h1
  rw [(C44_stale Chain.empty exChain 0 _ _ _ _ _ _ _ _ _ _ (Or.inl (by simp [exChain, Chain.empty])) rfl rfl rfl rfl
    rfl).1] at this
  obtain ⟨qdd, e⟩ := C42_total exChain h1 h2 h3 h4 0 [0, 0] [0, 0] [0, 0] [0, 0, 0] [0, 0] (fun _ _ => 0) (fun _ => 0)
    ⟨fun _ _ => 0, fun _ => 0⟩ (fun _ => 0) (fun _ => 0) rfl rfl rfl rfl rfl
  rw [e] at this
  simp [E_NOT_UP_TO_DATE, E_NOERROR] at this

/-- What does hold: when the change keeps the numbers of joints and segments, the update (or no update at all) gives the
behaviour of a fresh solver; and the inertia solver's update always does. -/
theorem C44_update_partial (c c' : Chain) (grav : Vec) (hj : c'.nrOfJoints = c.nrOfJoints)
    (hs : c'.nrOfSegments = c.nrOfSegments) :
    (FdState.new c grav).update c' = FdState.new c' grav ∧ FdState.new c grav = FdState.new c' grav ∧
    ∀ c'', (DynState.new c grav).update c'' = DynState.new c'' grav := by
  refine ⟨?_, ?_, fun _ => rfl⟩ <;> simp [FdState.new, FdState.update, DynState.new, hj, hs]

end KDL
