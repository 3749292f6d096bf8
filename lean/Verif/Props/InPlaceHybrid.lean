import Verif.Model.InPlaceHybrid
import Verif.Props.InPlace
import Verif.Props.HybridDynamics

/-!
# C102: calls of the Vereshchagin solver in place

The values for separate arrays are those of `Model/HybridDynamics.lean`.
-/

noncomputable section
namespace KDL
open Matrix

/-- The outputs of a run on separate arrays, stored in the objects `qdd` and `ct`, in the order of the assignments. -/
def HdOut.stored (h : JntStore) (qdd ct : ℕ) (o : HdOut) : HdStoreOut := ⟨(h.put ct o.ct).put qdd o.qdd, o.tt, o.acc⟩

/-- The result of a run on separate arrays, stored in the objects `qdd` and `ct`. -/
def HdResult.stored {nc : ℕ} (h : JntStore) (qdd ct : ℕ) : HdResult nc → HdResultAt nc
  | .err e => .err e
  | .nan => .nan
  | .ok nu base o => .ok nu base (o.stored h qdd ct)

theorem hdFinalAt_stored {nc : ℕ} (nu : Fin nc → ℝ) {qdd ct : ℕ} (hne : qdd ≠ ct) (h : JntStore) : ∀ (ss : List (HdArt nc)) (j : ℕ)
    (ap : Twist) (o : HdOut),
    hdFinalAt nu qdd ct ss j ap (o.stored h qdd ct) = (hdFinal nu ss j ap o).map (HdOut.stored h qdd ct) := by
  intro ss
  induction ss with
  | nil => intro j ap o; rfl
  | cons s ss ih =>
    intro j ap o
    unfold hdFinalAt hdFinal
    simp only [Option.bind_eq_bind]
    have e1 : (o.stored h qdd ct).h ct = o.ct := by
      simp [HdOut.stored, JntStore.put, Ne.symm hne]
    have e2 : (o.stored h qdd ct).tt = o.tt := rfl
    have e3 : (o.stored h qdd ct).acc = o.acc := rfl
    rw [e1, e2, e3]
    cases h1 : setJnt o.ct j (-(s.link.Z.dot (hdE s.E nu))) with
    | none => rfl
    | some l1 =>
      simp only [Option.bind_some, JntStore.put_same, (setJnt_set 0 h1).1]
      cases h2 : setJnt o.tt j (s.u + -(s.link.Z.dot (s.P * ap)) + -(s.link.Z.dot (hdE s.E nu))) with
      | none => rfl
      | some tt =>
        simp only [Option.bind_some]
        have e4 : ((o.stored h qdd ct).h.put ct l1) qdd = o.qdd := by
          simp [HdOut.stored, JntStore.put, hne]
        rw [e4]
        cases h3 : setJnt o.qdd j (s.u / s.D + -(s.link.Z.dot (s.P * ap)) / s.D + -(s.link.Z.dot (hdE s.E nu)) / s.D) with
        | none => rfl
        | some l2 =>
          simp only [Option.bind_some, (setJnt_set 0 h3).1]
          rw [← ih]
          congr 1
          simp only [HdOut.stored]
          congr 1
          funext y
          unfold JntStore.put
          split
          · rfl
          split <;> rfl

/-- `ChainHdSolver_Vereshchagin::CartToJnt` with separate objects for the two outputs: whether or not an output is also one of
the inputs (positions, speeds, feed-forward torques, `beta`), the call computes what it computes for separate objects, and
changes the two outputs only. -/
theorem C102_hybrid (s : HdState) (c : Chain) (svd : (n : ℕ) → Matrix (Fin n) (Fin n) ℝ → SvdOut n n) (tt0 : ℕ → ℝ)
    (q qd qdd : ℕ) (alfa : Jac) (beta : ℕ) (fext : List Wrench) (ff ct : ℕ) (h : JntStore) (hne : qdd ≠ ct) :
    s.cartToJntAt c svd tt0 q qd qdd alfa beta fext ff ct h =
      (s.cartToJnt c svd tt0 (h q) (h qd) (h qdd) alfa (h beta) fext (h ff) (h ct)).map (HdResult.stored h qdd ct) := by
  unfold HdState.cartToJntAt HdState.cartToJnt
  dsimp only
  split
  · rfl
  split
  · rfl
  split
  · rfl
  simp only [Option.bind_eq_bind]
  cases hdUp (h q) (h qd) fext (c.segments.take s.ns) 0 0 1 none with
  | none => rfl
  | some links =>
    simp only [Option.bind_some]
    cases hdFf (h ff) (c.segments.take s.ns).reverse ((c.nrOfJoints : ℤ) - 1) with
    | none => rfl
    | some ffs =>
      simp only [Option.bind_some]
      have e : (⟨h, (List.range s.tt).map tt0, []⟩ : HdStoreOut) =
          HdOut.stored h qdd ct ⟨h qdd, h ct, (List.range s.tt).map tt0, []⟩ := by
        unfold HdOut.stored
        congr 1
        funext y
        unfold JntStore.put
        split
        · simp_all
        split <;> simp_all
      rw [e, hdFinalAt_stored _ hne]
      generalize hdFinal _ _ _ _ _ = r
      cases r with
      | none => rfl
      | some r =>
        simp only [Option.map_some, Option.bind_some]
        split <;> rfl

theorem setJnt_length {l m : List ℝ} {j : ℤ} {x : ℝ} (h : setJnt l j x = some m) : m.length = l.length := by
  unfold setJnt at h
  split at h
  · simp only [Option.some.injEq] at h; rw [← h]; simp
  · simp at h

theorem hdFinalAt_one {nc : ℕ} (nu : Fin nc → ℝ) (x : ℕ) (h : JntStore) : ∀ (ss : List (HdArt nc)) (j : ℕ)
    (ap : Twist) (o : HdOut), o.ct.length = o.qdd.length →
    hdFinalAt nu x x ss j ap ⟨h.put x o.qdd, o.tt, o.acc⟩ =
      (hdFinal nu ss j ap o).map fun r => ⟨h.put x r.qdd, r.tt, r.acc⟩ := by
  intro ss
  induction ss with
  | nil => intro j ap o _; rfl
  | cons s ss ih =>
    intro j ap o hl
    unfold hdFinalAt hdFinal
    simp only [Option.bind_eq_bind, JntStore.put_same, JntStore.put_put]
    cases h1 : setJnt o.ct j (-(s.link.Z.dot (hdE s.E nu))) with
    | none =>
      have : setJnt o.qdd j (-(s.link.Z.dot (hdE s.E nu))) = none := by
        unfold setJnt at h1 ⊢
        rw [hl] at h1
        split at h1
        · simp at h1
        · rename_i hc; rw [if_neg hc]
      rw [this]; rfl
    | some l1 =>
      obtain ⟨l1', h1'⟩ : ∃ l, setJnt o.qdd j (-(s.link.Z.dot (hdE s.E nu))) = some l := by
        unfold setJnt at h1 ⊢
        rw [hl] at h1
        split at h1
        · rename_i hc; rw [if_pos hc]; exact ⟨_, rfl⟩
        · simp at h1
      rw [h1']
      simp only [Option.bind_some, (setJnt_set 0 h1').1]
      cases h2 : setJnt o.tt j (s.u + -(s.link.Z.dot (s.P * ap)) + -(s.link.Z.dot (hdE s.E nu))) with
      | none => rfl
      | some tt =>
        simp only [Option.bind_some]
        rw [(setJnt_set _ h1').2]
        cases h3 : setJnt o.qdd j (s.u / s.D + -(s.link.Z.dot (s.P * ap)) / s.D + -(s.link.Z.dot (hdE s.E nu)) / s.D) with
        | none => rfl
        | some l2 =>
          simp only [Option.bind_some, (setJnt_set 0 h3).1]
          exact ih _ _ ⟨l2, l1, tt, _⟩ (by simp only; rw [setJnt_length h1, setJnt_length h3, hl])

/-- One object for both outputs: it ends up with the accelerations, the constraint torques are lost; the total torques, the
accelerations of the links and `nu` are those of the call with separate objects. -/
theorem C102_hybrid_one (s : HdState) (c : Chain) (svd : (n : ℕ) → Matrix (Fin n) (Fin n) ℝ → SvdOut n n) (tt0 : ℕ → ℝ)
    (q qd x : ℕ) (alfa : Jac) (beta : ℕ) (fext : List Wrench) (ff : ℕ) (h : JntStore) :
    s.cartToJntAt c svd tt0 q qd x alfa beta fext ff x h =
      (s.cartToJnt c svd tt0 (h q) (h qd) (h x) alfa (h beta) fext (h ff) (h x)).map fun r => match r with
        | .err e => .err e
        | .nan => .nan
        | .ok nu base o => .ok nu base ⟨h.put x o.qdd, o.tt, o.acc⟩ := by
  unfold HdState.cartToJntAt HdState.cartToJnt
  dsimp only
  split
  · rfl
  split
  · rfl
  split
  · rfl
  simp only [Option.bind_eq_bind]
  cases hdUp (h q) (h qd) fext (c.segments.take s.ns) 0 0 1 none with
  | none => rfl
  | some links =>
    simp only [Option.bind_some]
    cases hdFf (h ff) (c.segments.take s.ns).reverse ((c.nrOfJoints : ℤ) - 1) with
    | none => rfl
    | some ffs =>
      simp only [Option.bind_some]
      have e : (⟨h, (List.range s.tt).map tt0, []⟩ : HdStoreOut) = ⟨h.put x (h x), (List.range s.tt).map tt0, []⟩ := by
        rw [JntStore.put_self]
      rw [e, hdFinalAt_one _ x h _ _ _ ⟨h x, h x, (List.range s.tt).map tt0, []⟩ rfl]
      generalize hdFinal _ _ _ _ _ = r
      cases r with
      | none => rfl
      | some r =>
        simp only [Option.map_some, Option.bind_some]
        split <;> rfl

/-- A call with the accelerations over the positions and the constraint torques over the feed-forward torques returns
normally: two sliders with gravity, a load, velocities and two constraints. -/
example (svd : (n : ℕ) → Matrix (Fin n) (Fin n) ℝ → SvdOut n n) (tt0 : ℕ → ℝ) :
    ∃ (h : JntStore) (nu : Fin 2 → ℝ) (base : List Frame) (out : HdStoreOut),
      (HdState.new (hdSlides 2) (-⟨⟨0, 0, -9.81⟩, 0⟩) 2).cartToJntAt (hdSlides 2) svd tt0 0 1 0
        [⟨⟨1, 0, 0⟩, 0⟩, ⟨⟨0, 1, 0⟩, 0⟩] 2 [0, ⟨⟨1, 1, 1⟩, ⟨0, 0, 1⟩⟩] 3 3 h = some (.ok nu base out) := by
  obtain ⟨hc, hv, hI, hM, hm⟩ := hdSlide_ok 2
  obtain ⟨nu, base, out, hh⟩ : ∃ nu base out, (HdState.new (hdSlides 2) (-⟨⟨0, 0, -9.81⟩, 0⟩) 2).cartToJnt (hdSlides 2) svd tt0
      [1, 2] [3, 4] [1, 2] [⟨⟨1, 0, 0⟩, 0⟩, ⟨⟨0, 1, 0⟩, 0⟩] [5, 0] [0, ⟨⟨1, 1, 1⟩, ⟨0, 0, 1⟩⟩] [6, 7] [6, 7] = some (.ok nu base out) :=
    C45_total hc hv hI hM hm (by constructor <;> simp [hdSlides])
  obtain ⟨h, e⟩ : ∃ h : JntStore, h = fun x => if x = 0 then [1, 2] else if x = 1 then [3, 4] else if x = 2 then [5, 0] else [6, 7] :=
    ⟨_, rfl⟩
  refine ⟨h, nu, base, out.stored h 0 3, ?_⟩
  rw [C102_hybrid _ _ _ _ _ _ _ _ _ _ _ _ _ (by norm_num)]
  have e0 : h 0 = [1, 2] := by rw [e]; simp
  have e1 : h 1 = [3, 4] := by rw [e]; simp
  have e2 : h 2 = [5, 0] := by rw [e]; simp
  have e3 : h 3 = [6, 7] := by rw [e]; simp
  rw [e0, e1, e2, e3, hh]
  rfl

end KDL
