import Verif.Lemmas.TreeIk
import Verif.Props.IkVel
import Verif.Props.Lma
import Verif.Props.TreeKin

/-!
# C70: weighted damped inverse velocity solver for trees (`TreeIkSolverVel_wdls`)
-/

noncomputable section

namespace KDL
namespace TreeWdls

open Matrix

/-- What the interface of the decomposition promises, for all sizes. -/
def GoodSvdFn (svd : SvdFn) : Prop := ∀ m n A, 0 ≤ (svd m n A).code → IsSvd A (svd m n A)

/-- `J` is the stacked Jacobian and `d` the stacked twist of the segments `names` of the tree: rows `6k … 6k+5` of `J q̇` are
the twist of segment `k` when the joints move with rates `q̇`, the same entries of `d` its desired twist.  Columns of
joints that move none of the segments and rows that belong to no segment are zero. -/
structure IsStack (T : Tree) (q : List ℝ) (v_in : SMap Twist) (names : List String) {R n : ℕ}
    (J : Matrix (Fin R) (Fin n) ℝ) (d : Fin R → ℝ) : Prop where
  rate : ∀ (k : ℕ) (c : Fin 6) (r : Fin R) (nm : String), r.val = 6 * k + c.val → names[k]? = some nm →
    ∀ l, Tree.Path T nm l → ∀ (Q : ℝ → ℕ → ℝ) (qd : ℕ → ℝ) (τ : ℝ), JntHasDeriv Q qd τ → Q τ = rd q →
      ∃ w, Frame.HasTwist (fun s => Tree.fkP (Q s) l) w τ ∧ (J *ᵥ fun i : Fin n => qd i) r = w.comp c
  goal : ∀ (k : ℕ) (c : Fin 6) (r : Fin R) (nm : String), r.val = 6 * k + c.val → names[k]? = some nm →
    ∃ tw, v_in.find nm = some tw ∧ d r = tw.comp c
  unused : ∀ i : Fin n, (∀ nm ∈ names, ∀ l, Tree.Path T nm l → ∀ e ∈ l, e.moving = true → e.q_nr ≠ i) → ∀ r, J r i = 0
  rest : ∀ r : Fin R, 6 * names.length ≤ r.val → d r = 0 ∧ ∀ i, J r i = 0

/-- The solver is set up for its tree: the endpoints are segments, the Jacobians have the number of joints as size. -/
structure Ready (s : TreeWdls) : Prop where
  reach : s.jtree.Reach
  valid : ∀ x ∈ s.jtree.segments, x.segment.Valid
  joints : 0 < s.jtree.nrOfJoints
  same : s.jtree.nrOfJoints = s.tree.nrOfJoints
  sizes : ∀ e ∈ s.jacobians, e.2.length = s.jtree.nrOfJoints
  inTree : ∀ e ∈ s.jacobians, e.1 ∈ s.jtree.names
  wy : s.Wy.rows = s.rows ∧ s.Wy.cols = s.rows
  wq : s.Wq.rows = s.tree.nrOfJoints ∧ s.Wq.cols = s.tree.nrOfJoints

/-- The two weighting matrices. -/
def wy (s : TreeWdls) : Matrix (Fin s.rows) (Fin s.rows) ℝ := fun i j => s.Wy.get i j
def wq (s : TreeWdls) : Matrix (Fin s.tree.nrOfJoints) (Fin s.tree.nrOfJoints) ℝ := fun i j => s.Wq.get i j

/-! ### Assembling the system -/

theorem dsum_comp (qd : ℕ → ℝ) (c : Fin 6) : ∀ (J : Jac) (k n : ℕ), J.length = n →
    (dsum qd J k).comp c = ∑ i : Fin n, (J.getD i 0).comp c * qd (k + i) := by
  intro J
  induction J with
  | nil => intro k n h; subst h; simp [dsum, Twist.comp_zero]
  | cons a J ih =>
    intro k n h
    obtain ⟨m, rfl⟩ : ∃ m, n = m + 1 := ⟨n - 1, by simp at h; omega⟩
    rw [dsum, Twist.comp_add, Twist.comp_smul, ih (k + 1) m (by simpa using h), Fin.sum_univ_succ]
    simp only [Fin.val_zero, List.getD_cons_zero, add_zero, Fin.val_succ, List.getD_cons_succ]
    rw [mul_comm]
    congr 1
    exact Finset.sum_congr rfl fun i _ => by rw [add_assoc, add_comm 1]

theorem gather_eq (T : Tree) (h : T.Reach) (hv : ∀ x ∈ T.segments, x.segment.Valid) (h0 : 0 < T.nrOfJoints) (q : List ℝ)
    (hq : q.length = T.nrOfJoints) (v_in : SMap Twist) : ∀ (js : SMap Jac), (∀ e ∈ js, e.2.length = T.nrOfJoints) →
    (∀ e ∈ js, e.1 ∈ T.names) → (∀ e ∈ js, ∃ tw, v_in.find e.1 = some tw) →
    ∃ l, gather T q v_in js = some (0, l) ∧ List.Forall₂ (fun e b => v_in.find e.1 = some b.2 ∧
      b.1.length = T.nrOfJoints ∧ ∀ p, Tree.Path T e.1 p →
        (∀ k, (∀ e ∈ p, e.moving = true → e.q_nr ≠ k) → b.1.getD k 0 = 0) ∧ ∀ (Q : ℝ → ℕ → ℝ) (qd : ℕ → ℝ) (τ : ℝ), JntHasDeriv Q qd τ →
        Q τ = rd q → Frame.HasTwist (fun s => Tree.fkP (Q s) p) (dsum qd b.1 0) τ) js l := by
  intro js
  induction js with
  | nil => intro _ _ _; exact ⟨[], rfl, .nil⟩
  | cons e js ih =>
    obtain ⟨n, J0⟩ := e
    intro hs hn hg
    obtain ⟨l, e1, e2⟩ := ih (fun e he => hs e (by simp [he])) (fun e he => hn e (by simp [he])) (fun e he => hg e (by simp [he]))
    obtain ⟨p, hp⟩ := (Tree.C34_path T h n).1.mp (hn (n, J0) (by simp))
    obtain ⟨J, j1, j2, j3⟩ := Tree.C35_jacobian T h hv h0 q hq J0 (hs (n, J0) (by simp)) n p hp
    obtain ⟨tw, htw⟩ := hg (n, J0) (by simp)
    dsimp only at htw
    refine ⟨(J, tw) :: l, ?_, .cons ⟨htw, j2, fun p' hp' => ?_⟩ e2⟩
    · rw [gather, j1]
      simp only [Option.bind_eq_bind, Option.bind_some]
      rw [if_neg (by norm_num), htw]
      simp only [Option.bind_some, e1]
    · rw [(Tree.C34_path T h n).2 p' p hp' hp]; exact j3

theorem stack_of_blocks {T : Tree} {q : List ℝ} {v_in : SMap Twist} {js : SMap Jac} {l : List (Jac × Twist)} (R n : ℕ)
    (hn : T.nrOfJoints = n) (hpath : ∀ nm ∈ js.map Prod.fst, ∃ p, Tree.Path T nm p)
    (h : List.Forall₂ (fun e b => v_in.find e.1 = some b.2 ∧
      b.1.length = T.nrOfJoints ∧ ∀ p, Tree.Path T e.1 p →
        (∀ k, (∀ e ∈ p, e.moving = true → e.q_nr ≠ k) → b.1.getD k 0 = 0) ∧ ∀ (Q : ℝ → ℕ → ℝ) (qd : ℕ → ℝ) (τ : ℝ), JntHasDeriv Q qd τ →
        Q τ = rd q → Frame.HasTwist (fun s => Tree.fkP (Q s) p) (dsum qd b.1 0) τ) js l) :
    IsStack T q v_in (js.map Prod.fst) (bigJ R n l) (bigT R l) := by
  have hlen := h.length_eq
  have hget : ∀ (k : ℕ) (nm : String), (js.map Prod.fst)[k]? = some nm → ∃ b, l[k]? = some b ∧ v_in.find nm = some b.2 ∧
      b.1.length = T.nrOfJoints ∧ ∀ p, Tree.Path T nm p →
        (∀ k, (∀ e ∈ p, e.moving = true → e.q_nr ≠ k) → b.1.getD k 0 = 0) ∧ ∀ (Q : ℝ → ℕ → ℝ) (qd : ℕ → ℝ) (τ : ℝ), JntHasDeriv Q qd τ →
        Q τ = rd q → Frame.HasTwist (fun s => Tree.fkP (Q s) p) (dsum qd b.1 0) τ := by
    intro k nm hk
    rw [List.getElem?_map] at hk
    obtain ⟨e, he, rfl⟩ := Option.map_eq_some_iff.mp hk
    have hk1 : k < js.length := (List.getElem?_eq_some_iff.mp he).1
    have hk2 : k < l.length := hlen ▸ hk1
    have := List.Forall₂.get h (i := k) hk1 hk2
    rw [List.getElem?_eq_getElem hk1] at he
    obtain rfl := Option.some.inj he
    exact ⟨l[k], List.getElem?_eq_getElem hk2, this⟩
  have hdiv : ∀ {R : ℕ} {r : Fin R} {k : ℕ} {c : Fin 6}, r.val = 6 * k + c.val → r.val / 6 = k ∧
      (⟨r.val % 6, Nat.mod_lt _ (by norm_num)⟩ : Fin 6) = c := by
    intro R r k c hr
    refine ⟨by omega, Fin.ext ?_⟩
    show r.val % 6 = c.val
    omega
  refine ⟨?_, ?_, ?_, ?_⟩
  · intro k c r nm hr hk p hp Q qd τ hQ hq
    obtain ⟨b, hb, -, hl, hw⟩ := hget k nm hk
    obtain ⟨d1, d2⟩ := hdiv hr
    refine ⟨_, (hw p hp).2 Q qd τ hQ hq, ?_⟩
    rw [dsum_comp qd c b.1 0 n (hl.trans hn)]
    simp only [Matrix.mulVec, dotProduct, bigJ, d1, hb, d2, zero_add]
  · intro k c r nm hr hk
    obtain ⟨b, hb, ht, -, -⟩ := hget k nm hk
    obtain ⟨d1, d2⟩ := hdiv hr
    refine ⟨b.2, ht, ?_⟩
    simp only [bigT, d1, hb, d2]
  · intro i hi r
    cases hk : (js.map Prod.fst)[r.val / 6]? with
    | none =>
      have : l[r.val / 6]? = none := by
        rw [List.getElem?_eq_none_iff, List.length_map] at hk
        rw [List.getElem?_eq_none_iff, ← hlen]; exact hk
      simp only [bigJ, this]
    | some nm =>
      obtain ⟨b, hb, -, -, hw⟩ := hget _ nm hk
      obtain ⟨p, hp⟩ := hpath nm (List.mem_of_getElem? hk)
      simp only [bigJ, hb]
      rw [(hw p hp).1 i (hi nm (List.mem_of_getElem? hk) p hp), Twist.comp_zero]
  · intro r hr
    have : l[r.val / 6]? = none := by
      rw [List.getElem?_eq_none_iff, ← hlen]
      rw [List.length_map] at hr
      omega
    exact ⟨by simp only [bigT, this], fun i => by simp only [bigJ, this]⟩

/-! ### The damped solution -/

theorem damped_normal {m k n : ℕ} {A : Matrix (Fin m) (Fin n) ℝ} (U : Matrix (Fin m) (Fin k) ℝ) (S : Fin k → ℝ)
    (V : Matrix (Fin n) (Fin k) ℝ) (hf : A = U * diagonal S * Vᵀ) (hU : OrthOn U S) (hV : OrthOn V S) (lam : ℝ)
    (hpos : ∀ i, S i * S i + lam ≠ 0) (b : Fin m → ℝ) :
    Aᵀ *ᵥ (A *ᵥ ((V * diagonal (fun i => S i / (S i * S i + lam)) * Uᵀ) *ᵥ b)) +
      lam • ((V * diagonal (fun i => S i / (S i * S i + lam)) * Uᵀ) *ᵥ b) = Aᵀ *ᵥ b := by
  set d : Fin k → ℝ := fun i => S i / (S i * S i + lam) with hd
  have hd0 : ∀ i, d i ≠ 0 → S i ≠ 0 := fun i hi h0 => hi (by simp [hd, h0])
  have e1 : Aᵀ * (A * (V * diagonal d * Uᵀ)) = V * diagonal (fun k => S k * (S k * d k)) * Uᵀ := by
    have s1 := sandwich hU S S (fun _ x => x) (fun _ x => x)
    have s2 := sandwich hV (fun k => S k * S k) d (fun i hi h0 => hi (by simp [h0])) hd0
    calc Aᵀ * (A * (V * diagonal d * Uᵀ))
        = V * ((diagonal S * (Uᵀ * U) * diagonal S) * (Vᵀ * V) * diagonal d) * Uᵀ := by
          rw [hf]
          simp only [Matrix.transpose_mul, Matrix.transpose_transpose, Matrix.diagonal_transpose, Matrix.mul_assoc]
      _ = _ := by
          rw [s1, s2]
          congr 2
          ext k
          simp [mul_assoc]
  have e2 : lam • (V * diagonal d * Uᵀ) = V * diagonal (fun k => lam * d k) * Uᵀ := by
    have : diagonal (fun k => lam * d k) = lam • diagonal d := by
      ext i j; simp [Matrix.diagonal_apply]
    rw [this]; simp
  have e3 : Aᵀ = V * diagonal S * Uᵀ := by
    rw [hf]
    simp only [Matrix.transpose_mul, Matrix.transpose_transpose, Matrix.diagonal_transpose, Matrix.mul_assoc]
  rw [← Matrix.smul_mulVec, Matrix.mulVec_mulVec, Matrix.mulVec_mulVec, ← Matrix.add_mulVec, Matrix.mul_assoc, e1, e2,
    ← Matrix.add_mul, ← Matrix.mul_add, Matrix.diagonal_add, e3]
  congr 4
  ext k
  simp only [hd]
  rw [show S k * (S k * (S k / (S k * S k + lam))) + lam * (S k / (S k * S k + lam)) =
    S k * ((S k * S k + lam) / (S k * S k + lam)) by ring, div_self (hpos k), mul_one]

theorem tmp_eq {R n : ℕ} {A : Matrix (Fin R) (Fin n) ℝ} {r : SvdOut R n} (h : IsSvd A r) (lambda : ℝ) (b : Fin R → ℝ) :
    r.V *ᵥ tmp r lambda b = (r.V * diagonal (fun i => r.S i / (r.S i * r.S i + lambda * lambda)) * r.Uᵀ) *ᵥ b := by
  rw [Matrix.mul_assoc, ← Matrix.mulVec_mulVec]
  congr 1
  funext i
  rw [← Matrix.mulVec_mulVec, Matrix.mulVec_diagonal]
  unfold tmp
  by_cases hi : i.val < R
  · simp only [hi, if_true]
    rw [mul_comm]
    rfl
  · rw [svd_tail r.U r.S h.orthU h.nonneg h.sorted i (not_lt.mp hi)]
    simp

/-- What a call with everything in order computes: the square system, then the outcome. -/
theorem call_eq (s : TreeWdls) (hs : s.Ready) (svd : SvdFn) (q_in : List ℝ) (hq : q_in.length = s.tree.nrOfJoints)
    (v_in : SMap Twist) (qdot_out : List ℝ) (hv : ∀ e ∈ v_in, e.1 ∈ s.jacobians.map Prod.fst)
    (hg : ∀ n ∈ s.jacobians.map Prod.fst, ∃ tw, v_in.find n = some tw) :
    ∃ (J : Matrix (Fin s.rows) (Fin s.tree.nrOfJoints) ℝ) (d : Fin s.rows → ℝ),
      IsStack s.jtree q_in v_in (s.jacobians.map Prod.fst) J d ∧
      s.cartToJnt svd q_in v_in qdot_out =
        (if (svd s.rows s.tree.nrOfJoints (s.wy * (J * s.wq))).code < 0 then some (.done TreeWdls.E_SVD_FAILED qdot_out)
        else if ∃ i, (svd s.rows s.tree.nrOfJoints (s.wy * (J * s.wq))).S i *
            (svd s.rows s.tree.nrOfJoints (s.wy * (J * s.wq))).S i + s.lambda * s.lambda = 0 then
          some (.nonfinite (Real.sqrt (sqn (s.wy *ᵥ d))))
        else some (.done (Real.sqrt (sqn (s.wy *ᵥ d))) (List.ofFn ((s.wq * (svd s.rows s.tree.nrOfJoints
          (s.wy * (J * s.wq))).V) *ᵥ tmp (svd s.rows s.tree.nrOfJoints (s.wy * (J * s.wq))) s.lambda (s.wy *ᵥ d))))) := by
  obtain ⟨l, e1, e2⟩ := gather_eq s.jtree hs.reach hs.valid hs.joints q_in (hq.trans hs.same.symm) v_in s.jacobians
    hs.sizes hs.inTree (fun e he => hg e.1 (List.mem_map_of_mem he))
  refine ⟨bigJ s.rows s.tree.nrOfJoints l, bigT s.rows l, stack_of_blocks _ _ hs.same (fun nm hm => ?_) e2, ?_⟩
  · obtain ⟨e, he, rfl⟩ := List.mem_map.mp hm
    exact (Tree.C34_path s.jtree hs.reach e.1).1.mp (hs.inTree e he)
  unfold cartToJnt
  rw [if_neg (by
    rintro ⟨e, he, h⟩
    exact SMap.find_eq_none.mp h (hv e he)), if_neg (not_not.mpr hq), e1]
  simp only [Option.bind_eq_bind, Option.bind_some]
  rw [if_neg (by norm_num), if_neg (by
    rw [not_or, not_or, not_or, not_not, not_not, not_not, not_not]
    exact ⟨hs.wy.1, hs.wy.2, hs.wq.1, hs.wq.2⟩)]
  rfl

/-- With damping (`lambda ≠ 0`) a call whose decomposition succeeds returns the norm of the weighted twists and sets `qdot_out`
to `Wq x` for the unique minimiser `x` of `|Wy (J Wq x − d)|² + λ² |x|²`, where `J` and `d` are the stacked Jacobians and
desired twists of all endpoints, each in the reference frame of the root with the segment tip as reference point. -/
theorem C70_damped (s : TreeWdls) (hs : s.Ready) (svd : SvdFn) (hsvd : GoodSvdFn svd) (hl : s.lambda ≠ 0) (q_in : List ℝ)
    (hq : q_in.length = s.tree.nrOfJoints) (v_in : SMap Twist) (qdot_out : List ℝ)
    (hv : ∀ e ∈ v_in, e.1 ∈ s.jacobians.map Prod.fst) (hg : ∀ n ∈ s.jacobians.map Prod.fst, ∃ tw, v_in.find n = some tw) :
    ∃ (J : Matrix (Fin s.rows) (Fin s.tree.nrOfJoints) ℝ) (d : Fin s.rows → ℝ),
      IsStack s.jtree q_in v_in (s.jacobians.map Prod.fst) J d ∧
      ((svd s.rows s.tree.nrOfJoints (s.wy * (J * s.wq))).code < 0 →
        s.cartToJnt svd q_in v_in qdot_out = some (.done TreeWdls.E_SVD_FAILED qdot_out)) ∧
      (0 ≤ (svd s.rows s.tree.nrOfJoints (s.wy * (J * s.wq))).code →
        ∃ x, DampedStep (s.wy * (J * s.wq)) (s.wy *ᵥ d) (s.lambda ^ 2) x ∧
          s.cartToJnt svd q_in v_in qdot_out = some (.done (Real.sqrt (sqn (s.wy *ᵥ d))) (List.ofFn (s.wq *ᵥ x)))) := by
  obtain ⟨J, d, hst, e⟩ := call_eq s hs svd q_in hq v_in qdot_out hv hg
  refine ⟨J, d, hst, fun h => by rw [e, if_pos h], fun h => ?_⟩
  have hsv := hsvd _ _ _ h
  set A := s.wy * (J * s.wq) with hA
  set r := svd s.rows s.tree.nrOfJoints A with hr
  have hpos : ∀ i, r.S i * r.S i + s.lambda * s.lambda ≠ 0 := fun i => by
    have := mul_self_pos.mpr hl
    nlinarith [mul_self_nonneg (r.S i)]
  refine ⟨r.V *ᵥ tmp r s.lambda (s.wy *ᵥ d), ?_, ?_⟩
  · rw [tmp_eq hsv, sq]
    exact damped_of_normal (mul_self_pos.mpr hl) (damped_normal r.U r.S r.V hsv.fact hsv.orthU hsv.orthV' _ hpos _)
  · rw [e, if_neg (not_lt.mpr h), if_neg (by rintro ⟨i, hi⟩; exact hpos i hi), Matrix.mulVec_mulVec]

/-- Without damping (the default `lambda = 0`), if the weighted Jacobian has independent columns (no redundancy, no
singularity): `qdot_out = Wq x` for the unique least-squares solution `x` of `Wy J Wq x = Wy d`. -/
theorem C70_undamped_partial (s : TreeWdls) (hs : s.Ready) (svd : SvdFn) (hsvd : GoodSvdFn svd) (hl : s.lambda = 0)
    (q_in : List ℝ) (hq : q_in.length = s.tree.nrOfJoints) (v_in : SMap Twist) (qdot_out : List ℝ)
    (hv : ∀ e ∈ v_in, e.1 ∈ s.jacobians.map Prod.fst) (hg : ∀ n ∈ s.jacobians.map Prod.fst, ∃ tw, v_in.find n = some tw) :
    ∃ (J : Matrix (Fin s.rows) (Fin s.tree.nrOfJoints) ℝ) (d : Fin s.rows → ℝ),
      IsStack s.jtree q_in v_in (s.jacobians.map Prod.fst) J d ∧
      (0 ≤ (svd s.rows s.tree.nrOfJoints (s.wy * (J * s.wq))).code →
        ((∀ x, (s.wy * (J * s.wq)) *ᵥ x = 0 → x = 0) →
          ∃ x, (∀ y, sqn ((s.wy * (J * s.wq)) *ᵥ x - s.wy *ᵥ d) ≤ sqn ((s.wy * (J * s.wq)) *ᵥ y - s.wy *ᵥ d) ∧
            (sqn ((s.wy * (J * s.wq)) *ᵥ y - s.wy *ᵥ d) = sqn ((s.wy * (J * s.wq)) *ᵥ x - s.wy *ᵥ d) → y = x)) ∧
          s.cartToJnt svd q_in v_in qdot_out = some (.done (Real.sqrt (sqn (s.wy *ᵥ d))) (List.ofFn (s.wq *ᵥ x)))) ∧
        ((∃ x, x ≠ 0 ∧ (s.wy * (J * s.wq)) *ᵥ x = 0) →
          s.cartToJnt svd q_in v_in qdot_out = some (.nonfinite (Real.sqrt (sqn (s.wy *ᵥ d)))))) := by
  obtain ⟨J, d, hst, e⟩ := call_eq s hs svd q_in hq v_in qdot_out hv hg
  refine ⟨J, d, hst, fun h => ⟨fun hinj => ?_, ?_⟩⟩
  · have hsv := hsvd _ _ _ h
    set A := s.wy * (J * s.wq) with hA
    set r := svd s.rows s.tree.nrOfJoints A with hr
    have hne : ∀ i, r.S i ≠ 0 := by
      intro i hi
      have hx : A *ᵥ (r.V *ᵥ Pi.single i 1) = 0 := by
        rw [hsv.fact, Matrix.mulVec_mulVec, Matrix.mul_assoc, Matrix.mul_assoc, hsv.orthV, Matrix.mul_one,
          ← Matrix.mulVec_mulVec]
        have : diagonal r.S *ᵥ Pi.single i 1 = 0 := by
          funext j
          rw [Matrix.mulVec_diagonal]
          by_cases hj : j = i
          · subst hj; simp [hi]
          · simp [Pi.single_eq_of_ne hj]
        rw [this, Matrix.mulVec_zero]
      have h1 := hinj _ hx
      have h2 : r.Vᵀ *ᵥ (r.V *ᵥ Pi.single i 1) = Pi.single i (1 : ℝ) := by
        rw [Matrix.mulVec_mulVec, hsv.orthV, Matrix.one_mulVec]
      rw [h1, Matrix.mulVec_zero] at h2
      have := congrFun h2 i
      simp at this
    have hpos : ∀ i, r.S i * r.S i + s.lambda * s.lambda ≠ 0 := fun i => by
      rw [hl, mul_zero, add_zero]; exact mul_self_ne_zero.mpr (hne i)
    refine ⟨r.V *ᵥ tmp r s.lambda (s.wy *ᵥ d), fun y => ?_, ?_⟩
    · have hn := damped_normal r.U r.S r.V hsv.fact hsv.orthU hsv.orthV' _ hpos (s.wy *ᵥ d)
      rw [← tmp_eq hsv, hl, mul_zero, zero_smul, add_zero] at hn
      rw [hl]
      set x := r.V *ᵥ tmp r 0 (s.wy *ᵥ d)
      have h0 : Aᵀ *ᵥ (A *ᵥ x - s.wy *ᵥ d) = 0 := by rw [Matrix.mulVec_sub, hn, sub_self]
      refine ⟨(lsq_of_normal _ _ _ h0).1 y, fun hy => ?_⟩
      have key : sqn (A *ᵥ y - s.wy *ᵥ d) = sqn (A *ᵥ x - s.wy *ᵥ d) + sqn (A *ᵥ (y - x)) := by
        have e1 : A *ᵥ y - s.wy *ᵥ d = (A *ᵥ x - s.wy *ᵥ d) + A *ᵥ (y - x) := by rw [Matrix.mulVec_sub]; abel
        have o : (A *ᵥ x - s.wy *ᵥ d) ⬝ᵥ (A *ᵥ (y - x)) = 0 := by
          rw [Matrix.dotProduct_mulVec, ← Matrix.mulVec_transpose, h0, zero_dotProduct]
        rw [e1, sqn_eq_dot, sqn_eq_dot, sqn_eq_dot, add_dotProduct, dotProduct_add, dotProduct_add, o,
          dotProduct_comm (A *ᵥ (y - x)) (A *ᵥ x - s.wy *ᵥ d), o]
        ring
      have hz : sqn (A *ᵥ (y - x)) = 0 := by linarith
      have := hinj _ (dotProduct_self_eq_zero.mp hz)
      exact sub_eq_zero.mp this
    · rw [e, if_neg (not_lt.mpr h), if_neg (by rintro ⟨i, hi⟩; exact hpos i hi), Matrix.mulVec_mulVec]
  · rintro ⟨x, hx, hx0⟩
    obtain ⟨i, hi⟩ := svd_zero_of_kernel (hsvd _ _ _ h).toIsDec x hx hx0
    rw [e, if_neg (not_lt.mpr h), if_pos ⟨i, by rw [hi, hl]; ring⟩]

/-- In particular, with the default settings, all endpoints move with their desired twists if the joints can do that and the
Jacobian has independent columns. -/
theorem C70_exact_partial (s : TreeWdls) (hs : s.Ready) (svd : SvdFn) (hsvd : GoodSvdFn svd)
    (hok : ∀ m n A, 0 ≤ (svd m n A).code) (hl : s.lambda = 0) (hwy : s.wy = 1) (hwq : s.wq = 1)
    (q_in : List ℝ) (hq : q_in.length = s.tree.nrOfJoints) (v_in : SMap Twist) (qdot_out : List ℝ)
    (hv : ∀ e ∈ v_in, e.1 ∈ s.jacobians.map Prod.fst) (hg : ∀ n ∈ s.jacobians.map Prod.fst, ∃ tw, v_in.find n = some tw) :
    ∃ (J : Matrix (Fin s.rows) (Fin s.tree.nrOfJoints) ℝ) (d : Fin s.rows → ℝ),
      IsStack s.jtree q_in v_in (s.jacobians.map Prod.fst) J d ∧
      ((∀ x, J *ᵥ x = 0 → x = 0) → (∃ x, J *ᵥ x = d) → ∃ x, J *ᵥ x = d ∧
        s.cartToJnt svd q_in v_in qdot_out = some (.done (Real.sqrt (sqn d)) (List.ofFn x))) := by
  obtain ⟨J, d, hst, h⟩ := C70_undamped_partial s hs svd hsvd hl q_in hq v_in qdot_out hv hg
  refine ⟨J, d, hst, fun hinj hx => ?_⟩
  have h := (h (hok _ _ _)).1
  simp only [hwy, hwq, Matrix.one_mul, Matrix.mul_one, Matrix.one_mulVec] at h
  obtain ⟨x, hm, e⟩ := h hinj
  obtain ⟨x0, hx0⟩ := hx
  refine ⟨x, ?_, e⟩
  have := (hm x0).1
  rw [hx0, sub_self, sqn_eq_dot 0, zero_dotProduct] at this
  have h0 : sqn (J *ᵥ x - d) = 0 := le_antisymm this (dot_self_nonneg' _)
  exact sub_eq_zero.mp (dotProduct_self_eq_zero.mp h0)

/-! ### Constructor, setters and guards -/

/-- The constructor: default weights and no damping, one Jacobian per endpoint (in alphabetical order), and both trees are
copies of `t`, whose joints are numbered depth first. -/
theorem C70_new (t : Tree) (h : t.Reach) (endpoints : List String) (jac0 : String → Jac) :
    ∃ s, new t endpoints jac0 = some s ∧ s.tree.Reach ∧ s.jtree = s.tree ∧ t.copy = some s.tree ∧
      s.tree.nrOfJoints = t.nrOfJoints ∧ (t.names = t.dfsNames → s.tree = t) ∧ s.lambda = 0 ∧
      s.rows = 6 * endpoints.length ∧ s.wy = 1 ∧ s.wq = 1 ∧
      (s.Wy.rows = s.rows ∧ s.Wy.cols = s.rows) ∧ (s.Wq.rows = s.tree.nrOfJoints ∧ s.Wq.cols = s.tree.nrOfJoints) ∧
      SMap.Sorted s.jacobians ∧ (∀ n, n ∈ s.jacobians.map Prod.fst ↔ n ∈ endpoints) ∧
      ∀ e ∈ s.jacobians, e.2 = jac0 e.1 := by
  obtain ⟨t', k1, k2, -, -, k5, -⟩ := Tree.C32_copy_structure h
  have k := Tree.C32_copy_idempotent h k1
  obtain ⟨b1, b2, b3⟩ := SMap.build_spec endpoints jac0
  refine ⟨⟨t', t', SMap.build endpoints jac0, 6 * endpoints.length, EMat.identity (6 * endpoints.length),
    EMat.identity t'.nrOfJoints, 0⟩, ?_, k2, rfl, k1, k5, fun hd => ?_, rfl, rfl, EMat_identity_matrix _,
    EMat_identity_matrix _, ⟨rfl, rfl⟩, ⟨rfl, rfl⟩, b1, b3, b2⟩
  · simp [new, k1, k]
  · rw [(Tree.C32_copy_exact_iff h).mpr hd] at k1
    exact (Option.some.inj k1).symm

/-- The setters change what they are named after. -/
theorem C70_setters (s : TreeWdls) (m : EMat) (l : ℝ) :
    (s.setWeightJS m).Wq = m ∧ (s.setWeightJS m).Wy = s.Wy ∧ (s.setWeightJS m).lambda = s.lambda ∧
    (s.setWeightTS m).Wy = m ∧ (s.setWeightTS m).Wq = s.Wq ∧ (s.setWeightTS m).lambda = s.lambda ∧
    (s.setLambda l).lambda = l ∧ (s.setLambda l).Wy = s.Wy ∧ (s.setLambda l).Wq = s.Wq ∧
    (s.setWeightJS m).jacobians = s.jacobians ∧ (s.setWeightTS m).jacobians = s.jacobians ∧
    (s.setLambda l).jacobians = s.jacobians ∧ (s.setWeightJS m).tree = s.tree ∧ (s.setWeightTS m).tree = s.tree ∧
    (s.setLambda l).tree = s.tree := by
  refine ⟨rfl, rfl, rfl, rfl, rfl, rfl, rfl, rfl, rfl, rfl, rfl, rfl, rfl, rfl, rfl⟩

theorem gather_error (T : Tree) (h : T.Reach) (hv : ∀ x ∈ T.segments, x.segment.Valid) (h0 : 0 < T.nrOfJoints) (q : List ℝ)
    (hq : q.length = T.nrOfJoints) (v_in : SMap Twist) : ∀ (js : SMap Jac), (∀ e ∈ js, e.2.length = T.nrOfJoints) →
    (∀ e ∈ js, ∃ tw, v_in.find e.1 = some tw) → (∃ e ∈ js, e.1 ∉ T.names) →
    ∃ l, gather T q v_in js = some (-2, l) := by
  intro js
  induction js with
  | nil => intro _ _ h; obtain ⟨e, he, _⟩ := h; simp at he
  | cons e js ih =>
    obtain ⟨n, J0⟩ := e
    intro hs hg hx
    by_cases hn : n ∈ T.names
    · obtain ⟨l, e1⟩ := ih (fun e he => hs e (by simp [he])) (fun e he => hg e (by simp [he])) (by
        obtain ⟨e, he, h⟩ := hx
        rcases List.mem_cons.mp he with rfl | he
        · exact absurd hn h
        · exact ⟨e, he, h⟩)
      obtain ⟨p, hp⟩ := (Tree.C34_path T h n).1.mp hn
      obtain ⟨J, j1, -⟩ := Tree.C35_jacobian T h hv h0 q hq J0 (hs (n, J0) (by simp)) n p hp
      obtain ⟨tw, htw⟩ := hg (n, J0) (by simp)
      dsimp only at htw
      refine ⟨(J, tw) :: l, ?_⟩
      rw [gather, j1]
      simp only [Option.bind_eq_bind, Option.bind_some]
      rw [if_neg (by norm_num), htw]
      simp only [Option.bind_some, e1]
    · refine ⟨[], ?_⟩
      rw [gather, (Tree.C35_errors T q J0 n).2 hq (hs (n, J0) (by simp)) hn]
      simp

/-- Error codes: −2 for a twist of something that is not an endpoint, −1 for a wrong number of joint values, −2 for an
endpoint that is not a segment; `qdot_out` is not touched. -/
theorem C70_guards (s : TreeWdls) (svd : SvdFn) (q_in : List ℝ) (v_in : SMap Twist) (qdot_out : List ℝ) :
    ((∃ e ∈ v_in, e.1 ∉ s.jacobians.map Prod.fst) → s.cartToJnt svd q_in v_in qdot_out = some (.done (-2) qdot_out)) ∧
    ((∀ e ∈ v_in, e.1 ∈ s.jacobians.map Prod.fst) → q_in.length ≠ s.tree.nrOfJoints →
      s.cartToJnt svd q_in v_in qdot_out = some (.done (-1) qdot_out)) ∧
    ((∀ e ∈ v_in, e.1 ∈ s.jacobians.map Prod.fst) → q_in.length = s.tree.nrOfJoints → s.jtree.Reach →
      (∀ x ∈ s.jtree.segments, x.segment.Valid) → 0 < s.jtree.nrOfJoints → s.jtree.nrOfJoints = s.tree.nrOfJoints →
      (∀ e ∈ s.jacobians, e.2.length = s.jtree.nrOfJoints) →
      (∀ n ∈ s.jacobians.map Prod.fst, ∃ tw, v_in.find n = some tw) → (∃ e ∈ s.jacobians, e.1 ∉ s.jtree.names) →
      s.cartToJnt svd q_in v_in qdot_out = some (.done (-2) qdot_out)) := by
  have hn : (∀ e ∈ v_in, e.1 ∈ s.jacobians.map Prod.fst) → ¬ ∃ e ∈ v_in, s.jacobians.find e.1 = none := by
    rintro hv ⟨e, he, h⟩
    exact SMap.find_eq_none.mp h (hv e he)
  refine ⟨?_, ?_, ?_⟩
  · rintro ⟨e, he, h⟩
    unfold cartToJnt
    exact if_pos ⟨e, he, SMap.find_eq_none.mpr h⟩
  · intro hv hq
    unfold cartToJnt
    rw [if_neg (hn hv), if_pos hq]
  · intro hv hq h1 h2 h3 h4 h5 h6 h7
    obtain ⟨l, e⟩ := gather_error s.jtree h1 h2 h3 q_in (hq.trans h4.symm) v_in s.jacobians h5
      (fun e he => h6 e.1 (List.mem_map_of_mem he)) h7
    unfold cartToJnt
    rw [if_neg (hn hv), if_neg (not_not.mpr hq), e]
    simp

/-- A negative code of the Jacobian solver, whichever it is, ends the call and is returned. -/
theorem C70_jac_code (s : TreeWdls) (svd : SvdFn) (q_in : List ℝ) (v_in : SMap Twist) (qdot_out : List ℝ)
    (hv : ∀ e ∈ v_in, e.1 ∈ s.jacobians.map Prod.fst) (hq : q_in.length = s.tree.nrOfJoints)
    (n : String) (J0 J : Jac) (rest : SMap Jac) (ret : Int) (hj : s.jacobians = (n, J0) :: rest)
    (hr : s.jtree.jacTree q_in J0 n = some (ret, J)) (h0 : ret < 0) :
    s.cartToJnt svd q_in v_in qdot_out = some (.done ret qdot_out) := by
  have hn : ¬ ∃ e ∈ v_in, s.jacobians.find e.1 = none := by
    rintro ⟨e, he, h⟩
    exact SMap.find_eq_none.mp h (hv e he)
  unfold cartToJnt
  rw [if_neg hn, if_neg (not_not.mpr hq), hj]
  simp [gather, hr, h0]

theorem gather_missing (T : Tree) (h : T.Reach) (hv : ∀ x ∈ T.segments, x.segment.Valid) (h0 : 0 < T.nrOfJoints) (q : List ℝ)
    (hq : q.length = T.nrOfJoints) (v_in : SMap Twist) : ∀ (js : SMap Jac), (∀ e ∈ js, e.2.length = T.nrOfJoints) →
    (∀ e ∈ js, e.1 ∈ T.names) → (∃ e ∈ js, v_in.find e.1 = none) → gather T q v_in js = none := by
  intro js
  induction js with
  | nil => intro _ _ h; obtain ⟨e, he, _⟩ := h; simp at he
  | cons e js ih =>
    obtain ⟨n, J0⟩ := e
    intro hs hn hx
    obtain ⟨p, hp⟩ := (Tree.C34_path T h n).1.mp (hn (n, J0) (by simp))
    obtain ⟨J, j1, -⟩ := Tree.C35_jacobian T h hv h0 q hq J0 (hs (n, J0) (by simp)) n p hp
    rw [gather, j1]
    simp only [Option.bind_eq_bind, Option.bind_some]
    rw [if_neg (by norm_num)]
    cases hf : v_in.find n with
    | none => rfl
    | some tw =>
      rw [ih (fun e he => hs e (by simp [he])) (fun e he => hn e (by simp [he])) (by
        obtain ⟨e, he, h⟩ := hx
        rcases List.mem_cons.mp he with rfl | he
        · rw [hf] at h; exact absurd h (by simp)
        · exact ⟨e, he, h⟩)]
      rfl

/-- Violated: the documentation (treeiksolver.hpp:51) does not demand that every endpoint has a twist, and the solver checks
only the other direction; an endpoint without one makes it dereference `v_in.end()`. -/
theorem C70_missing_twist_violated (s : TreeWdls) (hs : s.Ready) (svd : SvdFn) (q_in : List ℝ)
    (hq : q_in.length = s.tree.nrOfJoints) (v_in : SMap Twist) (qdot_out : List ℝ)
    (hv : ∀ e ∈ v_in, e.1 ∈ s.jacobians.map Prod.fst) (hm : ∃ n ∈ s.jacobians.map Prod.fst, v_in.find n = none) :
    s.cartToJnt svd q_in v_in qdot_out = none := by
  have hn : ¬ ∃ e ∈ v_in, s.jacobians.find e.1 = none := by
    rintro ⟨e, he, h⟩
    exact SMap.find_eq_none.mp h (hv e he)
  unfold cartToJnt
  rw [if_neg hn, if_neg (not_not.mpr hq), gather_missing s.jtree hs.reach hs.valid hs.joints q_in (hq.trans hs.same.symm) v_in
    s.jacobians hs.sizes hs.inTree (by
      obtain ⟨n, hn, h⟩ := hm
      obtain ⟨e, he, rfl⟩ := List.mem_map.mp hn
      exact ⟨e, he, h⟩)]
  rfl

/-- Violated with the default `lambda = 0`: more joints than rows (redundancy) always puts `0/0` into `qdot_out`, while the
returned value is not negative. -/
theorem C70_redundant_violated (s : TreeWdls) (hs : s.Ready) (svd : SvdFn) (hsvd : GoodSvdFn svd)
    (hok : ∀ m n A, 0 ≤ (svd m n A).code) (hl : s.lambda = 0) (q_in : List ℝ) (hq : q_in.length = s.tree.nrOfJoints)
    (v_in : SMap Twist) (qdot_out : List ℝ) (hv : ∀ e ∈ v_in, e.1 ∈ s.jacobians.map Prod.fst)
    (hg : ∀ n ∈ s.jacobians.map Prod.fst, ∃ tw, v_in.find n = some tw) (hr : s.rows < s.tree.nrOfJoints) :
    ∃ ret, 0 ≤ ret ∧ s.cartToJnt svd q_in v_in qdot_out = some (.nonfinite ret) := by
  obtain ⟨J, d, -, e⟩ := call_eq s hs svd q_in hq v_in qdot_out hv hg
  have hsv := hsvd _ _ _ (hok _ _ (s.wy * (J * s.wq)))
  refine ⟨_, Real.sqrt_nonneg (sqn (s.wy *ᵥ d)), ?_⟩
  refine e.trans ((if_neg (not_lt.mpr (hok _ _ _))).trans (if_pos ⟨⟨s.rows, hr⟩, ?_⟩))
  rw [svd_tail _ _ hsv.orthU hsv.nonneg hsv.sorted ⟨s.rows, hr⟩ le_rfl, hl]; ring

/-- Violated with the default `lambda = 0`: so does a joint that moves none of the endpoints. -/
theorem C70_unused_joint_violated (s : TreeWdls) (hs : s.Ready) (svd : SvdFn) (hsvd : GoodSvdFn svd)
    (hok : ∀ m n A, 0 ≤ (svd m n A).code) (hl : s.lambda = 0) (hw : s.wq = 1) (q_in : List ℝ)
    (hq : q_in.length = s.tree.nrOfJoints) (v_in : SMap Twist) (qdot_out : List ℝ)
    (hv : ∀ e ∈ v_in, e.1 ∈ s.jacobians.map Prod.fst) (hg : ∀ n ∈ s.jacobians.map Prod.fst, ∃ tw, v_in.find n = some tw)
    (i : Fin s.tree.nrOfJoints)
    (hi : ∀ nm ∈ s.jacobians.map Prod.fst, ∀ l, Tree.Path s.jtree nm l → ∀ e ∈ l, e.moving = true → e.q_nr ≠ i) :
    ∃ ret, 0 ≤ ret ∧ s.cartToJnt svd q_in v_in qdot_out = some (.nonfinite ret) := by
  obtain ⟨J, d, hst, h⟩ := C70_undamped_partial s hs svd hsvd hl q_in hq v_in qdot_out hv hg
  refine ⟨_, Real.sqrt_nonneg _, (h (hok _ _ _)).2 ⟨Pi.single i 1, ?_, ?_⟩⟩
  · intro h0
    have := congrFun h0 i
    simp at this
  · rw [hw, Matrix.mul_one, ← Matrix.mulVec_mulVec]
    have : J *ᵥ Pi.single i 1 = 0 := by
      funext r
      rw [Matrix.mulVec_single_one]
      exact hst.unused i hi r
    rw [this, Matrix.mulVec_zero]

/-- Violated with the default `lambda = 0`: the header says that a zero on the diagonal of the joint weights keeps that joint
still; instead every such matrix makes the solver divide `0/0`. -/
theorem C70_zero_weight_violated (s : TreeWdls) (hs : s.Ready) (svd : SvdFn) (hsvd : GoodSvdFn svd)
    (hok : ∀ m n A, 0 ≤ (svd m n A).code) (hl : s.lambda = 0) (w : Fin s.tree.nrOfJoints → ℝ) (hw : s.wq = diagonal w)
    (q_in : List ℝ) (hq : q_in.length = s.tree.nrOfJoints) (v_in : SMap Twist) (qdot_out : List ℝ)
    (hv : ∀ e ∈ v_in, e.1 ∈ s.jacobians.map Prod.fst) (hg : ∀ n ∈ s.jacobians.map Prod.fst, ∃ tw, v_in.find n = some tw)
    (i : Fin s.tree.nrOfJoints) (hi : w i = 0) :
    ∃ ret, 0 ≤ ret ∧ s.cartToJnt svd q_in v_in qdot_out = some (.nonfinite ret) := by
  obtain ⟨J, d, hst, h⟩ := C70_undamped_partial s hs svd hsvd hl q_in hq v_in qdot_out hv hg
  refine ⟨_, Real.sqrt_nonneg _, (h (hok _ _ _)).2 ⟨Pi.single i 1, ?_, ?_⟩⟩
  · intro h0
    have := congrFun h0 i
    simp at this
  · rw [hw, ← Matrix.mulVec_mulVec, ← Matrix.mulVec_mulVec]
    have : diagonal w *ᵥ Pi.single i 1 = 0 := by
      funext j
      rw [Matrix.mulVec_diagonal]
      by_cases hj : j = i
      · subst hj; simp [hi]
      · simp [Pi.single_eq_of_ne hj]
    rw [this, Matrix.mulVec_zero, Matrix.mulVec_zero]

/-- With damping the documented effect of a zero joint weight is there: the joint gets no velocity. -/
theorem C70_zero_weight (s : TreeWdls) (hs : s.Ready) (svd : SvdFn) (hsvd : GoodSvdFn svd)
    (hok : ∀ m n A, 0 ≤ (svd m n A).code) (hl : s.lambda ≠ 0) (w : Fin s.tree.nrOfJoints → ℝ) (hw : s.wq = diagonal w)
    (q_in : List ℝ) (hq : q_in.length = s.tree.nrOfJoints) (v_in : SMap Twist) (qdot_out : List ℝ)
    (hv : ∀ e ∈ v_in, e.1 ∈ s.jacobians.map Prod.fst) (hg : ∀ n ∈ s.jacobians.map Prod.fst, ∃ tw, v_in.find n = some tw)
    (i : Fin s.tree.nrOfJoints) (hi : w i = 0) :
    ∃ ret qd, s.cartToJnt svd q_in v_in qdot_out = some (.done ret (List.ofFn qd)) ∧ qd i = 0 := by
  obtain ⟨J, d, -, -, h⟩ := C70_damped s hs svd hsvd hl q_in hq v_in qdot_out hv hg
  obtain ⟨x, -, e⟩ := h (hok _ _ _)
  exact ⟨_, _, e, by rw [hw, Matrix.mulVec_diagonal, hi, zero_mul]⟩

/-! ### Examples -/

theorem exists_goodSvdFn : ∃ svd : SvdFn, GoodSvdFn svd ∧ ∀ m n A, 0 ≤ (svd m n A).code := by
  have h : ∀ m n (A : Matrix (Fin m) (Fin n) ℝ), ∃ r : SvdOut m n, IsSvd A r ∧ r.code = 0 := by
    intro m n A
    obtain ⟨U, S, V, h1, h2, h3, h4, h5⟩ := exists_svd A
    exact ⟨⟨0, U, S, V⟩, ⟨⟨h1, h2, h3, h4⟩, h5⟩, rfl⟩
  choose f hf using h
  exact ⟨f, fun m n A _ => (hf m n A).1, fun m n A => (hf m n A).2.ge⟩

/-- The example tree of C32 (joints A, B under the root, C under A), in the copy held by the solver, with
some of its segments as endpoints. -/
theorem demo_ready (endpoints : List String) (he : ∀ n ∈ endpoints, n = "A" ∨ n = "B" ∨ n = "C") :
    ∃ s, new Tree.demo endpoints (fun _ => [0, 0, 0]) = some s ∧ s.Ready ∧ s.lambda = 0 ∧ s.wq = 1 ∧ s.wy = 1 ∧
      s.tree.nrOfJoints = 3 ∧ s.jtree.find "A" = some ⟨Tree.mv "A", 0, some "r", ["C"]⟩ ∧
      s.jtree.find "r" = some ⟨Segment.ofName "r", 0, none, ["A", "B"]⟩ ∧ s.jtree.root_name = "r" ∧
      (∀ n, n ∈ s.jacobians.map Prod.fst ↔ n ∈ endpoints) := by
  obtain ⟨s, h1, h2, h3, h4, h5, h6, h7, h8, h9, h10, h11, h12, h13, h14, h15⟩ :=
    C70_new Tree.demo Tree.demo_reach endpoints (fun _ => [0, 0, 0])
  rw [Tree.demoCopy] at h4
  have ht := (Option.some.inj h4).symm
  have hj : s.jtree.nrOfJoints = 3 := by rw [h3, ht]
  refine ⟨s, h1, ⟨h3 ▸ h2, ?_, by rw [hj]; norm_num, by rw [h3], fun e he => by rw [h15 e he, hj]; rfl, fun e hm => ?_, h11, h12⟩,
    h7, h10, h9, by rw [ht], ?_, ?_, by rw [h3, ht], h14⟩
  · rw [h3, ht]
    intro x hx
    simp only [List.mem_cons, List.not_mem_nil, or_false] at hx
    rcases hx with rfl | rfl | rfl | rfl
    · exact ⟨by simp [Segment.ofName, Joint.Valid], Frame.IsProper.one⟩
    all_goals exact ⟨by simp [Tree.mv, Joint.Valid], Frame.IsProper.one⟩
  · have := he e.1 ((h14 e.1).mp (List.mem_map_of_mem hm))
    rw [h3, ht]
    rcases this with h | h | h <;> rw [h] <;> simp [Tree.names, TreeElem.name, Tree.mv]
  · rw [h3, ht]; simp [Tree.find, TreeElem.name, Segment.ofName, Tree.mv]
  · rw [h3, ht]; simp [Tree.find, TreeElem.name, Segment.ofName, Tree.mv]

/-- Non-vacuity of `C70_damped`. -/
example : ∃ (svd : SvdFn) (s : TreeWdls) (J : Matrix (Fin s.rows) (Fin s.tree.nrOfJoints) ℝ) (d : Fin s.rows → ℝ)
    (x : Fin s.tree.nrOfJoints → ℝ), DampedStep (s.wy * (J * s.wq)) (s.wy *ᵥ d) ((1 / 10) ^ 2) x ∧
      s.cartToJnt svd [1, 2, 3] [("B", ⟨⟨1, 0, 0⟩, 0⟩), ("C", 0)] [] =
        some (.done (Real.sqrt (sqn (s.wy *ᵥ d))) (List.ofFn (s.wq *ᵥ x))) := by
  obtain ⟨svd, hsvd, hok⟩ := exists_goodSvdFn
  obtain ⟨s, -, hs, -, -, -, h3, -, -, -, hk⟩ := demo_ready ["B", "C"] (by simp)
  obtain ⟨J, d, -, -, h⟩ := C70_damped (s.setLambda (1 / 10)) ⟨hs.reach, hs.valid, hs.joints, hs.same, hs.sizes, hs.inTree,
    hs.wy, hs.wq⟩ svd hsvd (by norm_num [setLambda]) [1, 2, 3] (by exact h3.symm) [("B", ⟨⟨1, 0, 0⟩, 0⟩), ("C", 0)] [] (by
      intro e he
      refine (hk e.1).mpr ?_
      simp only [List.mem_cons, List.not_mem_nil, or_false] at he
      rcases he with rfl | rfl <;> simp) (by
      intro n hn
      have := (hk n).mp hn
      simp only [List.mem_cons, List.not_mem_nil, or_false] at this
      rcases this with rfl | rfl <;> simp [SMap.find])
  obtain ⟨x, hx, e⟩ := h (hok _ _ _)
  exact ⟨svd, _, J, d, x, hx, e⟩

/-- Violated: the solver as constructed (no setters called) for endpoint "A" of a tree with another branch: every call puts
`0/0` into `qdot_out`. -/
theorem C70_default_violated (svd : SvdFn) (hsvd : GoodSvdFn svd) (hok : ∀ m n A, 0 ≤ (svd m n A).code) :
    ∃ s, new Tree.demo ["A"] (fun _ => [0, 0, 0]) = some s ∧ ∀ (q : List ℝ) (v : Twist) (qdot : List ℝ), q.length = 3 →
      ∃ ret, 0 ≤ ret ∧ s.cartToJnt svd q [("A", v)] qdot = some (.nonfinite ret) := by
  obtain ⟨s, h1, hs, hl, hw, -, h3, hA, hr, hroot, hk⟩ := demo_ready ["A"] (by simp)
  refine ⟨s, h1, fun q v qdot hq => ?_⟩
  have hpath : Tree.Path s.jtree "A" [⟨Tree.mv "A", 0, some "r", ["C"]⟩] :=
    .step (l := []) hA (by rw [hroot]; decide) rfl (hroot ▸ .root (hroot ▸ hr))
  refine C70_unused_joint_violated s hs svd hsvd hok hl hw q (hq.trans h3.symm) [("A", v)] qdot ?_ ?_ ⟨1, by rw [h3]; norm_num⟩ ?_
  · intro e he
    refine (hk e.1).mpr ?_
    simp only [List.mem_cons, List.not_mem_nil, or_false] at he
    subst he; simp
  · intro n hn
    have := (hk n).mp hn
    simp only [List.mem_cons, List.not_mem_nil, or_false] at this
    subst this; simp [SMap.find]
  · intro nm hnm l hl' e he _
    obtain rfl : nm = "A" := by simpa using (hk nm).mp hnm
    rw [(Tree.C34_path s.jtree hs.reach "A").2 l _ hl' hpath] at he
    simp only [List.mem_cons, List.not_mem_nil, or_false] at he
    subst he
    simp

/-- Violated, concretely: two endpoints, one twist. -/
example (svd : SvdFn) : ∃ s, new Tree.demo ["A", "B"] (fun _ => [0, 0, 0]) = some s ∧ s.cartToJnt svd [0, 0, 0] [("A", 0)] [] = none := by
  obtain ⟨s, h1, hs, -, -, -, h3, -, -, -, hk⟩ := demo_ready ["A", "B"] (by simp)
  refine ⟨s, h1, C70_missing_twist_violated s hs svd [0, 0, 0] h3.symm [("A", 0)] [] ?_ ⟨"B", (hk "B").mpr (by simp), ?_⟩⟩
  · intro e he
    refine (hk e.1).mpr ?_
    simp only [List.mem_cons, List.not_mem_nil, or_false] at he
    subst he; simp
  · simp [SMap.find]

end TreeWdls
end KDL
