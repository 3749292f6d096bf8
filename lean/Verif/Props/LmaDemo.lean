import Verif.Model.LmaDemo
import Verif.Props.Lma

/-!
# C83: statistics of the Levenberg-Marquardt demonstration

`examples/chainiksolverpos_lma_demo.cpp` solves one inverse kinematics problem per trial and reports how often the solver
succeeded or failed, and extremes of iteration counts and remaining differences.
-/

namespace KDL
open Matrix

/-! ### What happens in the trials -/

theorem LmaRun.length {c : Chain} {L : Fin 6 → ℝ} {goal : Frame} {q0 : List ℝ} {k : ℕ} {q : List ℝ} {lam v : ℝ}
    (h : LmaRun c L goal q0 k q lam v) (h0 : q0.length = c.nrOfJoints) : q.length = c.nrOfJoints := by
  induction h with
  | start => exact h0
  | accept _ _ _ ih => simp [jsum, ih]
  | reject _ _ _ ih => exact ih

theorem LmaDone.out_length {c : Chain} {svd : ThinSvdFn} {goal : Frame} {s : LmaState} {q0 : List ℝ} {o : LmaOut}
    (h : LmaDone c svd goal s q0 o) (h0 : q0.length = c.nrOfJoints) :
    o.q_out.length = c.nrOfJoints ∧ o.st.lastNrOfIter ≤ s.maxiter := by
  rcases h.cases with ⟨-, -, h1, lam, v, h2⟩ | ⟨-, -, h1, lam, v, x, h2, -⟩ | ⟨-, -, h1, -, lam, v, x, h2, -⟩ | ⟨-, -, h1, lam, v, h2⟩
  · exact ⟨h2.length h0, h1.le⟩
  · exact ⟨h2.length h0, h1.le⟩
  · exact ⟨h2.length h0, h1.le⟩
  · exact ⟨h2.length h0, h1.le⟩

/-- A solver as the demonstration sets it up. -/
structure DemoReady (c : Chain) (s : LmaState) : Prop where
  nj : s.nj = c.nrOfJoints
  fk : s.fk.Sized c
  jac : s.jac.length = c.nrOfJoints
  L : s.L = ![1, 1, 1, 1 / 100, 1 / 100, 1 / 100]
  eps : s.eps = 1 / 10 ^ 5
  eps_joints : s.eps_joints = 1 / 10 ^ 15
  maxiter : s.maxiter = 500

/-- `o` is what a call of the solver for the pose at `q`, started at `q_init`, leaves behind. -/
def IsTrial (c : Chain) (svd : ThinSvdFn) (t : List ℝ × List ℝ) (o : LmaOut) : Prop :=
  ∃ s q_sol, DemoReady c s ∧ q_sol.length = c.nrOfJoints ∧ s.cartToJnt c svd t.2 (endF c t.1) q_sol = some o

theorem ready_call {c : Chain} (hc : c.WF) {svd : ThinSvdFn} (hsvd : GoodThinSvd svd) {s : LmaState} (hs : DemoReady c s)
    {q q_init q_sol : List ℝ} (h2 : q_init.length = c.nrOfJoints) (h3 : q_sol.length = c.nrOfJoints) :
    ∃ o, s.cartToJnt c svd q_init (endF c q) q_sol = some o ∧ DemoReady c o.st ∧ o.q_out.length = c.nrOfJoints ∧
      o.st.lastNrOfIter ≤ 500 ∧ (o.ret = 0 ∨ o.ret = -101 ∨ o.ret = -100 ∨ o.ret = E_MAX_ITERATIONS_EXCEEDED) := by
  have hm : s.maxiter ≠ 0 := by rw [hs.maxiter]; norm_num
  obtain ⟨o, e, same, -, -, hr, -, -⟩ := C52_sound s c hc svd hsvd q_init (endF c q) q_sol hs.nj hs.fk hs.jac h2 h3 (.inl hm)
  have hl : o.q_out.length = c.nrOfJoints ∧ o.st.lastNrOfIter ≤ 500 := by
    by_cases h : wDist c s.L (endF c q) q_init < s.eps
    · obtain ⟨st, e', -, g2, -⟩ := C52_immediate s c hc svd q_init (endF c q) q_sol hs.nj hs.fk h2 h3 h
      rw [e, Option.some.injEq] at e'
      subst e'
      exact ⟨h2, by dsimp only; omega⟩
    · obtain ⟨o', e', d⟩ := C52_search s c hc svd hsvd q_init (endF c q) q_sol hs.nj hs.fk hs.jac h2 h3 (not_lt.mp h) (.inl hm)
      rw [e, Option.some.injEq] at e'
      subst e'
      have := d.out_length h2
      rwa [hs.maxiter] at this
  exact ⟨o, e, ⟨same.nj.trans hs.nj, same.fk, same.jac, same.L.trans hs.L, same.eps.trans hs.eps,
    same.eps_joints.trans hs.eps_joints, same.maxiter.trans hs.maxiter⟩, hl.1, hl.2, hr⟩

theorem display_ok {c : Chain} (hc : c.WF) (svd : ThinSvdFn) {s : LmaState} (hs : DemoReady c s) {q : List ℝ}
    (hq : q.length = c.nrOfJoints) :
    ∃ st, s.displayJac c svd q = some (List.ofFn (svd c.nrOfJoints (jacMat c.nrOfJoints (geoJac c q))).S, st) ∧
      DemoReady c st ∧ st.lastNrOfIter = s.lastNrOfIter ∧ st.lastDifference = s.lastDifference ∧
      st.lastTransDiff = s.lastTransDiff ∧ st.lastRotDiff = s.lastRotDiff ∧ st.lastSV = s.lastSV := by
  obtain ⟨w, e1, e2, -, -, e3, -⟩ := C52_jacobian c hc q hq s.fk hs.fk s.jac hs.jac
  unfold LmaState.displayJac
  rw [e1]
  simp only [Option.bind_eq_bind, Option.bind_some]
  rw [e3]
  simp only [Option.bind_some]
  rw [← hs.nj]
  refine ⟨_, rfl, ⟨hs.nj, e2, ?_, hs.L, hs.eps, hs.eps_joints, hs.maxiter⟩, rfl, rfl, rfl, rfl, rfl⟩
  show (geoJac c q).length = _
  rw [geoJac, colsF_length, hc.2]

/-- **C83, `display_jac`** shows the singular values of the Jacobian at the joint values given, and changes none of the results
of the last call. -/
theorem C83_display {c : Chain} (hc : c.WF) (svd : ThinSvdFn) {s : LmaState} (hn : s.nj = c.nrOfJoints) (hf : s.fk.Sized c)
    (hj : s.jac.length = c.nrOfJoints) {q : List ℝ} (hq : q.length = c.nrOfJoints) :
    ∃ st, s.displayJac c svd q = some (List.ofFn (svd c.nrOfJoints (jacMat c.nrOfJoints (geoJac c q))).S, st) ∧
      st.lastNrOfIter = s.lastNrOfIter ∧ st.lastDifference = s.lastDifference ∧
      st.lastTransDiff = s.lastTransDiff ∧ st.lastRotDiff = s.lastRotDiff ∧ st.lastSV = s.lastSV ∧ st.error = s.error := by
  obtain ⟨w, e1, e2, -, -, e3, -⟩ := C52_jacobian c hc q hq s.fk hf s.jac hj
  unfold LmaState.displayJac
  rw [e1]
  simp only [Option.bind_eq_bind, Option.bind_some]
  rw [e3]
  simp only [Option.bind_some]
  rw [← hn]
  exact ⟨_, rfl, rfl, rfl, rfl, rfl, rfl, rfl⟩

theorem fk_end {c : Chain} (hc : c.WF) {q : List ℝ} (hq : q.length = c.nrOfJoints) :
    fkPos c q (-1) = some (E_NOERROR, endF c q) := by
  obtain ⟨w, -, -, e, e2, -⟩ := C52_jacobian c hc q hq ⟨1, List.replicate c.nrOfJoints 1, List.replicate c.nrOfJoints 1⟩
    ⟨by simp, by simp⟩ (List.replicate c.nrOfJoints 0) (by simp)
  rw [e2, e]

/-- The effect of one trial on the statistics, from what the call left behind. -/
noncomputable def DemoStat.add (d : DemoStat) (o : LmaOut) : DemoStat := ((d.count o.ret).iterations o.st).differences o.st

theorem trial_ok {c : Chain} (hc : c.WF) {svd : ThinSvdFn} (hsvd : GoodThinSvd svd) {d : DemoSt} (hs : DemoReady c d.solver)
    (hq : d.q_sol.length = c.nrOfJoints) {q q_init : List ℝ} (h1 : q.length = c.nrOfJoints) (h2 : q_init.length = c.nrOfJoints) :
    ∃ o d', IsTrial c svd (q, q_init) o ∧ o.st.lastNrOfIter ≤ 500 ∧
      (o.ret = 0 ∨ o.ret = -101 ∨ o.ret = -100 ∨ o.ret = E_MAX_ITERATIONS_EXCEEDED) ∧
      demoTrial c svd d q q_init = some d' ∧ DemoReady c d'.solver ∧ d'.q_sol.length = c.nrOfJoints ∧
      d'.stat = d.stat.add o := by
  obtain ⟨o, e, ho, hl, hi, hr⟩ := ready_call hc hsvd hs (q := q) h2 hq
  have hit : IsTrial c svd (q, q_init) o := ⟨d.solver, d.q_sol, hs, hq, e⟩
  have h3 : o.ret ≠ -3 := by rcases hr with h | h | h | h <;> rw [h] <;> decide
  unfold demoTrial
  rw [fk_end hc h1]
  simp only [Option.bind_eq_bind, Option.bind_some]
  rw [e]
  simp only [Option.bind_some]
  by_cases h0 : o.ret = 0
  · rw [if_neg (not_not.mpr h0)]
    rw [fk_end hc hl]
    exact ⟨o, _, hit, hi, hr, rfl, ho, hl, if_pos h3⟩
  · rw [if_pos h0]
    obtain ⟨s1, d1, r1, a1, a2, a3, a4, -⟩ := display_ok hc svd ho h1
    obtain ⟨s2, d2, r2, b1, b2, b3, b4, -⟩ := display_ok hc svd r1 hl
    rw [d1]
    simp only [Option.bind_some]
    rw [d2]
    simp only [Option.bind_some]
    rw [fk_end hc hl]
    refine ⟨o, _, hit, hi, hr, rfl, r2, hl, ?_⟩
    show (if o.ret ≠ -3 then _ else _) = _
    rw [if_pos h3]
    simp only [DemoStat.add, DemoStat.iterations, DemoStat.differences, a1, a2, a3, a4, b1, b2, b3, b4]

theorem loop_ok {c : Chain} (hc : c.WF) {svd : ThinSvdFn} (hsvd : GoodThinSvd svd) : ∀ (ts : List (List ℝ × List ℝ)) (d : DemoSt),
    DemoReady c d.solver → d.q_sol.length = c.nrOfJoints →
    (∀ t ∈ ts, t.1.length = c.nrOfJoints ∧ t.2.length = c.nrOfJoints) →
    ∃ os d', List.Forall₂ (IsTrial c svd) ts os ∧ (∀ o ∈ os, o.st.lastNrOfIter ≤ 500 ∧
      (o.ret = 0 ∨ o.ret = -101 ∨ o.ret = -100 ∨ o.ret = E_MAX_ITERATIONS_EXCEEDED)) ∧
      demoLoop c svd ts d = some d' ∧ d'.stat = os.foldl DemoStat.add d.stat := by
  intro ts
  induction ts with
  | nil => intro d _ _ _; exact ⟨[], d, .nil, by simp, rfl, rfl⟩
  | cons t ts ih =>
    intro d hs hq ht
    obtain ⟨q, qi⟩ := t
    obtain ⟨o, d1, a1, a2, a3, a4, a5, a6, a7⟩ := trial_ok hc hsvd hs hq (ht (q, qi) (by simp)).1 (ht (q, qi) (by simp)).2
    obtain ⟨os, d', b1, b2, b3, b4⟩ := ih d1 a5 a6 fun t h => ht t (by simp [h])
    refine ⟨o :: os, d', .cons a1 b1, ?_, ?_, ?_⟩
    · intro x hx
      rcases List.mem_cons.mp hx with rfl | hx
      · exact ⟨a2, a3⟩
      · exact b2 x hx
    · rw [demoLoop, a4]; exact b3
    · rw [b4, a7]; rfl

/-! ### The statistics -/

/-- `m` is the largest of the values and `m0`. -/
def IsMax {α : Type*} [LE α] (m0 : α) (l : List α) (m : α) : Prop := m0 ≤ m ∧ (∀ x ∈ l, x ≤ m) ∧ (m = m0 ∨ m ∈ l)
/-- `m` is the smallest of the values and `m0`. -/
def IsMin {α : Type*} [LE α] (m0 : α) (l : List α) (m : α) : Prop := m ≤ m0 ∧ (∀ x ∈ l, m ≤ x) ∧ (m = m0 ∨ m ∈ l)

/-- What the statistics should be after calls that left `os` behind (`d0` is the initial value). -/
structure DemoStat.Good (os : List LmaOut) (d : DemoStat) : Prop where
  total : d.total_number_of_iter = (os.map fun o => (o.st.lastNrOfIter : ℤ)).sum
  ok : d.nrofresult_ok = os.countP (fun o => o.ret = 0)
  maxIter : IsMax 0 (os.map fun o => (o.st.lastNrOfIter : ℤ)) d.max_num_of_iter
  minIter : IsMin 10000000 (os.map fun o => (o.st.lastNrOfIter : ℤ)) d.min_num_of_iter
  maxDiff : IsMax 0 (os.map fun o => o.st.lastDifference) d.max_diff
  minDiff : IsMin (10 ^ 10) (os.map fun o => o.st.lastDifference) d.min_diff
  maxTrans : IsMax 0 (os.map fun o => o.st.lastTransDiff) d.max_trans_diff
  minTrans : IsMin (10 ^ 10) (os.map fun o => o.st.lastTransDiff) d.min_trans_diff

theorem IsMax.snoc {α : Type*} [LinearOrder α] {m0 : α} {l : List α} {m x m' : α} (h : IsMax m0 l m)
    (e : m' = if x > m then x else m) : IsMax m0 (l ++ [x]) m' := by
  obtain ⟨h1, h2, h3⟩ := h
  subst e
  split_ifs with hx
  · refine ⟨h1.trans hx.le, fun y hy => ?_, .inr (by simp)⟩
    rcases List.mem_append.mp hy with hy | hy
    · exact (h2 y hy).trans hx.le
    · rw [List.mem_singleton.mp hy]
  · refine ⟨h1, fun y hy => ?_, h3.imp_right (by simp +contextual)⟩
    rcases List.mem_append.mp hy with hy | hy
    · exact h2 y hy
    · rw [List.mem_singleton.mp hy]; exact not_lt.mp hx

theorem IsMin.snoc {α : Type*} [LinearOrder α] {m0 : α} {l : List α} {m x m' : α} (h : IsMin m0 l m)
    (e : m' = if x < m then x else m) : IsMin m0 (l ++ [x]) m' := by
  obtain ⟨h1, h2, h3⟩ := h
  subst e
  split_ifs with hx
  · refine ⟨hx.le.trans h1, fun y hy => ?_, .inr (by simp)⟩
    rcases List.mem_append.mp hy with hy | hy
    · exact hx.le.trans (h2 y hy)
    · rw [List.mem_singleton.mp hy]
  · refine ⟨h1, fun y hy => ?_, h3.imp_right (by simp +contextual)⟩
    rcases List.mem_append.mp hy with hy | hy
    · exact h2 y hy
    · rw [List.mem_singleton.mp hy]; exact not_lt.mp hx

open Classical in
/-- The effect of one trial, field by field. -/
theorem add_fields (d : DemoStat) (o : LmaOut) :
    (d.add o).total_number_of_iter = d.total_number_of_iter + o.st.lastNrOfIter ∧
    (d.add o).nrofresult_ok = d.nrofresult_ok + (if o.ret = 0 then 1 else 0) ∧
    (d.add o).max_num_of_iter = (if (o.st.lastNrOfIter : ℤ) > d.max_num_of_iter then (o.st.lastNrOfIter : ℤ) else d.max_num_of_iter) ∧
    (d.add o).min_num_of_iter = (if (o.st.lastNrOfIter : ℤ) < d.min_num_of_iter then (o.st.lastNrOfIter : ℤ) else d.min_num_of_iter) ∧
    (d.add o).max_diff = (if o.st.lastDifference > d.max_diff then o.st.lastDifference else d.max_diff) ∧
    (d.add o).min_diff = (if o.st.lastDifference < d.min_diff then o.st.lastDifference else d.min_diff) ∧
    (d.add o).max_trans_diff = (if o.st.lastTransDiff > d.max_trans_diff then o.st.lastTransDiff else d.max_trans_diff) ∧
    (d.add o).min_trans_diff = (if o.st.lastTransDiff < d.min_trans_diff then o.st.lastTransDiff else d.min_trans_diff) ∧
    (d.add o).max_rot_diff = (if o.st.lastRotDiff > (d.add o).max_trans_diff then o.st.lastRotDiff else d.max_rot_diff) ∧
    (d.add o).min_rot_diff = (if o.st.lastRotDiff < (d.add o).min_trans_diff then o.st.lastRotDiff else d.min_rot_diff) ∧
    (d.add o).nrofresult_minus1 = d.nrofresult_minus1 + (if o.ret = -1 then 1 else 0) ∧
    (d.add o).nrofresult_minus2 = d.nrofresult_minus2 + (if o.ret = -2 then 1 else 0) ∧
    (d.add o).nrofresult_minus3 = d.nrofresult_minus3 + (if o.ret = -3 then 1 else 0) := by
  have hc : (d.count o.ret).total_number_of_iter = d.total_number_of_iter ∧
      (d.count o.ret).max_num_of_iter = d.max_num_of_iter ∧ (d.count o.ret).min_num_of_iter = d.min_num_of_iter ∧
      (d.count o.ret).max_diff = d.max_diff ∧ (d.count o.ret).min_diff = d.min_diff ∧
      (d.count o.ret).max_trans_diff = d.max_trans_diff ∧ (d.count o.ret).min_trans_diff = d.min_trans_diff ∧
      (d.count o.ret).max_rot_diff = d.max_rot_diff ∧ (d.count o.ret).min_rot_diff = d.min_rot_diff ∧
      (d.count o.ret).nrofresult_ok = d.nrofresult_ok + (if o.ret = 0 then 1 else 0) ∧
      (d.count o.ret).nrofresult_minus1 = d.nrofresult_minus1 + (if o.ret = -1 then 1 else 0) ∧
      (d.count o.ret).nrofresult_minus2 = d.nrofresult_minus2 + (if o.ret = -2 then 1 else 0) ∧
      (d.count o.ret).nrofresult_minus3 = d.nrofresult_minus3 + (if o.ret = -3 then 1 else 0) := by
    unfold DemoStat.count
    split_ifs with h0 h1 h2 h3 <;> simp_all
  obtain ⟨c1, c2, c3, c4, c5, c6, c7, c8, c9, c10, c11, c12, c13⟩ := hc
  unfold DemoStat.add
  generalize d.count o.ret = e at *
  simp only [DemoStat.differences, DemoStat.iterations, apply_ite DemoStat.total_number_of_iter, apply_ite DemoStat.nrofresult_ok, apply_ite DemoStat.nrofresult_minus1, apply_ite DemoStat.nrofresult_minus2, apply_ite DemoStat.nrofresult_minus3, apply_ite DemoStat.min_num_of_iter, apply_ite DemoStat.max_num_of_iter, apply_ite DemoStat.min_diff, apply_ite DemoStat.max_diff, apply_ite DemoStat.min_trans_diff, apply_ite DemoStat.max_trans_diff, apply_ite DemoStat.min_rot_diff, apply_ite DemoStat.max_rot_diff, ite_self, c1, c2, c3, c4, c5, c6, c7, c8, c9, c10, c11, c12, c13,
    and_self]

theorem good_add {os : List LmaOut} {d : DemoStat} (h : d.Good os) (o : LmaOut) : (d.add o).Good (os ++ [o]) := by
  obtain ⟨a1, a2, a3, a4, a5, a6, a7, a8, -⟩ := add_fields d o
  refine ⟨?_, ?_, ?_, ?_, ?_, ?_, ?_, ?_⟩
  · rw [a1, h.total]; simp
  · rw [a2, h.ok]
    by_cases h0 : o.ret = 0 <;> simp [h0]
  · rw [List.map_append]; exact h.maxIter.snoc a3
  · rw [List.map_append]; exact h.minIter.snoc a4
  · rw [List.map_append]
    refine h.maxDiff.snoc (a5.trans ?_)
    split_ifs <;> rfl
  · rw [List.map_append]
    refine h.minDiff.snoc (a6.trans ?_)
    split_ifs <;> rfl
  · rw [List.map_append]
    refine h.maxTrans.snoc (a7.trans ?_)
    split_ifs <;> rfl
  · rw [List.map_append]
    refine h.minTrans.snoc (a8.trans ?_)
    split_ifs <;> rfl

theorem good_foldl (os : List LmaOut) : (os.foldl DemoStat.add {}).Good os := by
  induction os using List.reverseRecOn with
  | nil =>
    refine ⟨rfl, rfl, ⟨le_rfl, by simp, .inl rfl⟩, ⟨le_rfl, by simp, .inl rfl⟩, ⟨le_rfl, by simp, .inl rfl⟩,
      ⟨le_rfl, by simp, .inl rfl⟩, ⟨le_rfl, by simp, .inl rfl⟩, ⟨le_rfl, by simp, .inl rfl⟩⟩
  | append_singleton os o ih => rw [List.foldl_append]; exact good_add ih o

theorem minus_foldl (os : List LmaOut)
    (h : ∀ o ∈ os, o.ret = 0 ∨ o.ret = -101 ∨ o.ret = -100 ∨ o.ret = E_MAX_ITERATIONS_EXCEEDED) :
    (os.foldl DemoStat.add {}).nrofresult_minus1 = 0 ∧ (os.foldl DemoStat.add {}).nrofresult_minus2 = 0 ∧
    (os.foldl DemoStat.add {}).nrofresult_minus3 = 0 := by
  induction os using List.reverseRecOn with
  | nil => exact ⟨rfl, rfl, rfl⟩
  | append_singleton os o ih =>
    obtain ⟨i1, i2, i3⟩ := ih fun x hx => h x (by simp [hx])
    obtain ⟨-, -, -, -, -, -, -, -, -, -, b1, b2, b3⟩ := add_fields (os.foldl DemoStat.add {}) o
    rw [List.foldl_append]
    simp only [List.foldl_cons, List.foldl_nil]
    rw [b1, b2, b3, i1, i2, i3]
    rcases h o (by simp) with e | e | e | e <;> rw [e] <;> decide

theorem demo_run {c : Chain} (hc : c.WF) {svd : ThinSvdFn} (hsvd : GoodThinSvd svd) (trials : List (List ℝ × List ℝ))
    (ht : ∀ t ∈ trials, t.1.length = c.nrOfJoints ∧ t.2.length = c.nrOfJoints) (jac0 : Jac) (hj : jac0.length = c.nrOfJoints)
    (sv0 : List ℝ) :
    ∃ os, List.Forall₂ (IsTrial c svd) trials os ∧ (∀ o ∈ os, o.st.lastNrOfIter ≤ 500 ∧
      (o.ret = 0 ∨ o.ret = -101 ∨ o.ret = -100 ∨ o.ret = E_MAX_ITERATIONS_EXCEEDED)) ∧
      testInversePosKin c svd trials jac0 sv0 = some (os.foldl DemoStat.add {}) := by
  obtain ⟨⟨h1, h2, h3, h4, h5, h6, h7⟩, -⟩ := C52_sizes c demoL (1 / 10 ^ 5) 500 (1 / 10 ^ 15) jac0 sv0 hj
    (LmaState.new c demoL (1 / 10 ^ 5) 500 (1 / 10 ^ 15) jac0 sv0) [] [] (by simp [LmaState.new, hj])
  have hr : DemoReady c (LmaState.new c demoL (1 / 10 ^ 5) 500 (1 / 10 ^ 15) jac0 sv0) :=
    ⟨h1, h2, h3, h4, h5, h6, by exact_mod_cast h7 (by norm_num) (by norm_num)⟩
  obtain ⟨os, d', a1, a2, a3, a4⟩ := loop_ok hc hsvd trials
    ⟨LmaState.new c demoL (1 / 10 ^ 5) 500 (1 / 10 ^ 15) jac0 sv0, List.replicate c.nrOfJoints 0, {}⟩ hr (by simp) ht
  refine ⟨os, a1, a2, ?_⟩
  unfold testInversePosKin
  rw [a3]
  show some d'.stat = _
  rw [a4]

/-- **C83, partial.**  The demonstration runs without undefined behaviour; the number of successes, the number of iterations and
the extremes of iteration counts, weighted and translational differences are those of the calls made.
Missing: the counts of failures (`C83_failures_violated`) and the extremes of the rotational difference
(`C83_rot_violated`). -/
theorem C83_statistics_partial {c : Chain} (hc : c.WF) {svd : ThinSvdFn} (hsvd : GoodThinSvd svd) (trials : List (List ℝ × List ℝ))
    (ht : ∀ t ∈ trials, t.1.length = c.nrOfJoints ∧ t.2.length = c.nrOfJoints) (jac0 : Jac) (hj : jac0.length = c.nrOfJoints)
    (sv0 : List ℝ) :
    ∃ os d, List.Forall₂ (IsTrial c svd) trials os ∧ testInversePosKin c svd trials jac0 sv0 = some d ∧ d.Good os := by
  obtain ⟨os, h1, -, h2⟩ := demo_run hc hsvd trials ht jac0 hj sv0
  exact ⟨os, _, h1, h2, good_foldl os⟩

/-- A trial counts as a success exactly if the joint values found reach the pose within the tolerance. -/
theorem C83_success {c : Chain} (hc : c.WF) {svd : ThinSvdFn} (hsvd : GoodThinSvd svd) {t : List ℝ × List ℝ} {o : LmaOut}
    (ht : t.2.length = c.nrOfJoints) (h : IsTrial c svd t o) :
    o.ret = 0 ↔ wDist c ![1, 1, 1, 1 / 100, 1 / 100, 1 / 100] (endF c t.1) o.q_out < 1 / 10 ^ 5 := by
  obtain ⟨s, q_sol, hs, hq, e⟩ := h
  obtain ⟨o', e', -, -, h', -⟩ := C52_sound s c hc svd hsvd t.2 (endF c t.1) q_sol hs.nj hs.fk hs.jac ht hq
    (.inl (by rw [hs.maxiter]; norm_num))
  rw [e, Option.some.injEq] at e'
  subst e'
  rw [← hs.L, ← hs.eps]
  exact h'

/-- The number of iterations fits an `int` for the number of trials made. -/
theorem C83_total {c : Chain} (hc : c.WF) {svd : ThinSvdFn} (hsvd : GoodThinSvd svd) (trials : List (List ℝ × List ℝ))
    (ht : ∀ t ∈ trials, t.1.length = c.nrOfJoints ∧ t.2.length = c.nrOfJoints) (jac0 : Jac) (hj : jac0.length = c.nrOfJoints)
    (sv0 : List ℝ) (hn : trials.length ≤ 1000000) :
    ∃ d, testInversePosKin c svd trials jac0 sv0 = some d ∧ 0 ≤ d.total_number_of_iter ∧ d.total_number_of_iter < 2 ^ 31 ∧
      d.max_num_of_iter ≤ 500 ∧ (trials ≠ [] → d.min_num_of_iter ≤ 500) := by
  obtain ⟨os, h1, h2, h3⟩ := demo_run hc hsvd trials ht jac0 hj sv0
  have hg := good_foldl os
  have hl : os.length = trials.length := h1.length_eq.symm
  have hsum : ∀ os : List LmaOut, (∀ o ∈ os, o.st.lastNrOfIter ≤ 500) →
      0 ≤ (os.map fun o => (o.st.lastNrOfIter : ℤ)).sum ∧ (os.map fun o => (o.st.lastNrOfIter : ℤ)).sum ≤ 500 * os.length := by
    intro os
    induction os with
    | nil => simp
    | cons o os ih =>
      intro h
      have := ih fun x hx => h x (by simp [hx])
      have := h o (by simp)
      simp only [List.map_cons, List.sum_cons, List.length_cons]
      push_cast
      omega
  have := hsum os fun o ho => (h2 o ho).1
  refine ⟨_, h3, ?_, ?_, ?_, ?_⟩
  · rw [hg.total]; exact this.1
  · rw [hg.total]; omega
  · rcases hg.maxIter.2.2 with e | e
    · rw [e]; norm_num
    · obtain ⟨o, ho, e⟩ := List.mem_map.mp e
      rw [← e]; exact_mod_cast (h2 o ho).1
  · intro hne
    have : os ≠ [] := by rintro rfl; cases h1; exact hne rfl
    obtain ⟨o, ho⟩ := List.exists_mem_of_ne_nil _ this
    exact (hg.minIter.2.1 _ (List.mem_map.mpr ⟨o, ho, rfl⟩)).trans (by exact_mod_cast (h2 o ho).1)

/-- The counts of failures, for every chain and all trials: the demonstration counts the codes -1, -2, -3, which
the solver does not return; the four counts add up to the number of trials only if there was no failure. -/
theorem C83_failures {c : Chain} (hc : c.WF) {svd : ThinSvdFn} (hsvd : GoodThinSvd svd) (trials : List (List ℝ × List ℝ))
    (ht : ∀ t ∈ trials, t.1.length = c.nrOfJoints ∧ t.2.length = c.nrOfJoints) (jac0 : Jac) (hj : jac0.length = c.nrOfJoints)
    (sv0 : List ℝ) :
    ∃ os d, List.Forall₂ (IsTrial c svd) trials os ∧ testInversePosKin c svd trials jac0 sv0 = some d ∧
      d.nrofresult_minus1 = 0 ∧ d.nrofresult_minus2 = 0 ∧ d.nrofresult_minus3 = 0 ∧
      (d.nrofresult_ok + d.nrofresult_minus1 + d.nrofresult_minus2 + d.nrofresult_minus3 = trials.length ↔
        ∀ o ∈ os, o.ret = 0) := by
  obtain ⟨os, h1, h2, h3⟩ := demo_run hc hsvd trials ht jac0 hj sv0
  obtain ⟨m1, m2, m3⟩ := minus_foldl os fun o ho => (h2 o ho).2
  refine ⟨os, _, h1, h3, m1, m2, m3, ?_⟩
  rw [m1, m2, m3, (good_foldl os).ok, ← h1.length_eq.symm]
  have : (os.countP (fun o => o.ret = 0) : ℤ) + 0 + 0 + 0 = os.length ↔ os.countP (fun o => o.ret = 0) = os.length := by
    omega
  rw [this, List.countP_eq_length]
  simp

/-! ### Witnesses -/

/-- Two crossing revolute joints. -/
def xyChain : Chain := ⟨2, 2, [⟨"a", ⟨"a", .RotX, 1, 0, 0, 0, 0, 0, 0⟩, RBI.zero, 1⟩, ⟨"b", ⟨"b", .RotY, 1, 0, 0, 0, 0, 0, 0⟩, RBI.zero, 1⟩]⟩
/-- One revolute joint. -/
def zChain : Chain := ⟨1, 1, [⟨"a", ⟨"a", .RotZ, 1, 0, 0, 0, 0, 0, 0⟩, RBI.zero, 1⟩]⟩

theorem xy_end (a b : ℝ) : endF xyChain [a, b] = ⟨Rot.rotX a * Rot.rotY b, 0⟩ := by
  simp only [endF, xyChain, fkF, Segment.pose, Joint.pose, Segment.moving, Joint.moving, rd, Frame.ofRot]
  ext <;> simp
theorem z_end (a : ℝ) : endF zChain [a] = ⟨Rot.rotZ a, 0⟩ := by
  simp only [endF, zChain, fkF, Segment.pose, Joint.pose, Segment.moving, Joint.moving, rd, Frame.ofRot]
  ext <;> simp

theorem xy_diff : Frame.diff (endF xyChain [0, 0]) (endF xyChain [Real.pi, Real.pi]) 1 = ⟨0, ⟨0, 0, Real.pi⟩⟩ := by
  have h : (((Rot.rotX 0 * Rot.rotY 0 : Rot).inv) * (Rot.rotX Real.pi * Rot.rotY Real.pi)).getRot = ⟨0, 0, Real.pi⟩ := by
    have e : ((Rot.rotX 0 * Rot.rotY 0 : Rot).inv) * (Rot.rotX Real.pi * Rot.rotY Real.pi) = ⟨-1, 0, 0, 0, -1, 0, 0, 0, 1⟩ := by
      ext <;> simp [Rot.rotX, Rot.rotY]
    rw [e]
    have he := epsilon_pos
    unfold Rot.getRot Rot.getRotAngle
    dsimp only
    rw [if_pos (by simp [he]), if_neg, if_neg (by norm_num), if_neg (by norm_num)]
    · ext <;> simp
    · rintro ⟨-, -, -, h⟩
      norm_num [epsilon] at h
  rw [xy_end, xy_end]
  simp only [Frame.diff, Rot.diff, Vec.diff]
  rw [h]
  ext <;> simp [Rot.rotX, Rot.rotY]

theorem xy_geo : geoJac xyChain [0, 0] = [⟨0, ⟨1, 0, 0⟩⟩, ⟨0, ⟨0, 1, 0⟩⟩] := by
  simp only [geoJac, xyChain, colsF, fkF, Segment.moving, Joint.moving, Segment.pose, Segment.twist, Joint.pose, Joint.twist, rd,
    Frame.ofRot]
  simp only [ne_eq, reduceCtorEq, not_false_eq_true, decide_true, if_true]
  congr 1
  · ext <;> simp [Rot.rotX, Rot.rotY, Twist.refPoint]
  · congr 1
    ext <;> simp [Rot.rotX, Rot.rotY, Twist.refPoint]

/-- The weights of the demonstration. -/
noncomputable abbrev dL : Fin 6 → ℝ := ![1, 1, 1, 1 / 100, 1 / 100, 1 / 100]
/-- The pose with both joints turned by half a turn. -/
noncomputable abbrev xyGoal : Frame := endF xyChain [Real.pi, Real.pi]

theorem xy_err : wErr xyChain dL xyGoal [0, 0] = ![0, 0, 0, 0, 0, Real.pi / 100] := by
  funext i
  simp only [wErr, xyGoal, xy_diff]
  fin_cases i <;> simp [Twist.comp, dL]
  ring

theorem xy_dist : wDist xyChain dL xyGoal [0, 0] = Real.pi / 100 := by
  have : sqn ![0, 0, 0, 0, 0, Real.pi / 100] = (Real.pi / 100) ^ 2 := by
    simp [sqn, Fin.sum_univ_six, pow_two]
  rw [wDist, xy_err, this, Real.sqrt_sq (by positivity)]

theorem xy_obj (lam : ℝ) (y : Fin 2 → ℝ) : sqn (wJac xyChain dL [0, 0] *ᵥ (y : Fin xyChain.nrOfJoints → ℝ) - wErr xyChain dL xyGoal [0, 0]) +
    lam * sqn (y : Fin xyChain.nrOfJoints → ℝ) = (1 / 10000 + lam) * (y 0 ^ 2 + y 1 ^ 2) + (Real.pi / 100) ^ 2 := by
  have hJ : ∀ r, (wJac xyChain dL [0, 0] *ᵥ (y : Fin xyChain.nrOfJoints → ℝ)) r = ![0, 0, 0, y 0 / 100, y 1 / 100, 0] r := by
    intro r
    unfold Matrix.mulVec dotProduct
    rw [show (∑ i : Fin xyChain.nrOfJoints, wJac xyChain dL [0, 0] r i * y i) =
      ∑ i : Fin 2, wJac xyChain dL [0, 0] r i * y i from rfl, Fin.sum_univ_two]
    simp only [wJac, xy_geo]
    fin_cases r <;> simp [Twist.comp, dL] <;> ring
  have hy : sqn (y : Fin xyChain.nrOfJoints → ℝ) = y 0 ^ 2 + y 1 ^ 2 := by
    show ∑ i : Fin 2, y i * y i = _
    rw [Fin.sum_univ_two]; ring
  rw [hy, xy_err]
  simp only [sqn, Pi.sub_apply, hJ, Fin.sum_univ_six]
  simp; ring

theorem xy_run {k : ℕ} {q : List ℝ} {lam v : ℝ} (h : LmaRun xyChain dL xyGoal [0, 0] k q lam v) : q = [0, 0] ∧ 0 < lam ∧ 0 < v := by
  induction h with
  | start => norm_num
  | @accept k q lam v x _ hx hd ih =>
    obtain ⟨rfl, hl, hv⟩ := ih
    have h0 := (hx fun _ => 0).1
    obtain ⟨y, hy⟩ : ∃ y : Fin 2 → ℝ, y = x := ⟨x, rfl⟩
    have e1 := xy_obj lam y
    have e2 := xy_obj lam fun _ => 0
    rw [hy] at e1
    have h1 := e1.symm.trans_le (h0.trans_eq e2)
    rw [← hy] at h1
    have h2 : (1 / 10000 + lam) * (y 0 ^ 2 + y 1 ^ 2) ≤ 0 := by linarith
    have hz : y 0 ^ 2 + y 1 ^ 2 ≤ 0 := by
      by_contra h3
      exact absurd h2 (not_le.mpr (mul_pos (by linarith) (not_le.mp h3)))
    have h0' : y 0 = 0 := by nlinarith [sq_nonneg (y 0), sq_nonneg (y 1)]
    have h1' : y 1 = 0 := by nlinarith [sq_nonneg (y 0), sq_nonneg (y 1)]
    have : jsum [0, 0] (List.ofFn x) = [0, 0] := by
      rw [← hy]
      show jsum [0, 0] (List.ofFn y) = _
      simp [jsum, List.ofFn_succ, h0', h1']
    rw [this] at hd
    exact absurd hd (lt_irrefl _)
  | reject _ _ _ ih => exact ⟨ih.1, mul_pos ih.2.1 ih.2.2, by linarith [ih.2.2]⟩

/-- **C83 fails for the counts of failures.**  The solver cannot leave the start position, where the pose differs by half a turn
about the third axis; none of the four counts registers this trial. -/
theorem C83_failures_violated (svd : ThinSvdFn) (hsvd : GoodThinSvd svd) : ∃ d, testInversePosKin xyChain svd [([Real.pi, Real.pi], [0, 0])] [0, 0] [] = some d ∧
    d.nrofresult_ok + d.nrofresult_minus1 + d.nrofresult_minus2 + d.nrofresult_minus3 = 0 := by
  have hc : xyChain.WF := ⟨rfl, rfl⟩
  obtain ⟨os, h1, h2, h3⟩ := demo_run hc hsvd [([Real.pi, Real.pi], [0, 0])] (by simp; decide) [0, 0] rfl []
  obtain ⟨m1, m2, m3⟩ := minus_foldl os fun o ho => (h2 o ho).2
  refine ⟨_, h3, ?_⟩
  rw [m1, m2, m3, (good_foldl os).ok]
  cases h1 with
  | cons ht hn =>
    cases hn
    rename_i o
    obtain ⟨s, q_sol, hs, hq, e⟩ := ht
    have hf : s.eps ≤ wDist xyChain s.L xyGoal [0, 0] := by
      rw [hs.L, hs.eps, xy_dist]; linarith [Real.two_le_pi]
    obtain ⟨o', e', d⟩ := C52_search s xyChain hc svd hsvd [0, 0] xyGoal q_sol hs.nj hs.fk hs.jac rfl hq hf
      (.inl (by rw [hs.maxiter]; norm_num))
    rw [e, Option.some.injEq] at e'
    subst e'
    have hne : o.ret ≠ 0 := by
      rcases d.cases with ⟨-, h, -, lam, v, hrun⟩ | ⟨h, -⟩ | ⟨h, -⟩ | ⟨h, -⟩
      · rw [hs.L] at hrun
        rw [(xy_run hrun).1] at h
        exact absurd h (not_lt.mpr hf)
      · rw [h]; decide
      · rw [h]; decide
      · rw [h]; decide
    simp [hne]

theorem z_diff {a : ℝ} (h0 : 1 / 10000 ≤ a) (h1 : a ≤ 1 / 1000) : (Frame.diff (endF zChain [0]) (endF zChain [a]) 1).vel = 0 ∧
    (Frame.diff (endF zChain [0]) (endF zChain [a]) 1).rot.dot (Frame.diff (endF zChain [0]) (endF zChain [a]) 1).rot = a ^ 2 := by
  have hs : 1 / 20000 ≤ Real.sin a := by
    have := Real.mul_le_sin (x := a) (by linarith) (by linarith [Real.two_le_pi])
    have h2 : 2 / Real.pi ≥ 1 / 2 := by
      rw [ge_iff_le, div_le_div_iff₀ (by norm_num) Real.pi_pos]; linarith [Real.pi_le_four]
    nlinarith
  have hp := Rot.isProper_rotZ a
  have hr : (Rot.rotZ a).Regular epsilon := by
    rintro ⟨h, -, -⟩
    have h2 : (Rot.rotZ a).m01 - (Rot.rotZ a).m10 = -(2 * Real.sin a) := by simp only [Rot.rotZ]; ring
    rw [h2, abs_neg, abs_of_pos (by linarith)] at h
    unfold epsilon at h
    linarith
  have hd := (Rot.regular_getRot hp hr).2.1
  have ec : ((Rot.rotZ a).m00 + (Rot.rotZ a).m11 + (Rot.rotZ a).m22 - 1) / 2 = Real.cos a := by
    simp [Rot.rotZ]
  rw [ec, Real.arccos_cos (by linarith) (by linarith [Real.two_le_pi])] at hd
  have e0 : (Rot.rotZ 0 : Rot).inv * Rot.rotZ a = Rot.rotZ a := by ext <;> simp [Rot.rotZ]
  rw [z_end, z_end]
  simp only [Frame.diff, Rot.diff, Vec.diff]
  rw [e0]
  constructor
  · ext <;> simp
  · rw [← hd]
    generalize (Rot.rotZ a).getRot = v
    simp [Rot.rotZ, Vec.dot]

theorem z_trial {svd : ThinSvdFn} {a : ℝ} (h0 : 1 / 10000 ≤ a) (h1 : a < 1 / 1000) {o : LmaOut} (h : IsTrial zChain svd ([a], [0]) o) :
    o.ret = 0 ∧ o.st.lastTransDiff = 0 ∧ o.st.lastRotDiff = a := by
  obtain ⟨s, q_sol, hs, hq, e⟩ := h
  obtain ⟨d1, d2⟩ := z_diff h0 h1.le
  have hw : wDist zChain s.L (endF zChain [a]) [0] < s.eps := by
    have : sqn (wErr zChain dL (endF zChain [a]) [0]) = (a / 100) ^ 2 := by
      simp only [sqn, wErr, Fin.sum_univ_six]
      generalize Frame.diff (endF zChain [0]) (endF zChain [a]) 1 = t at *
      obtain ⟨v, w⟩ := t
      simp only at d1 d2
      subst d1
      simp [Twist.comp, dL]
      simp only [Vec.dot] at d2
      linear_combination (1 / 10000) * d2
    rw [hs.eps, hs.L, wDist, this, Real.sqrt_sq (by linarith)]
    linarith
  obtain ⟨st, e', -, -, -, t1, t2, -⟩ := C52_immediate s zChain ⟨rfl, rfl⟩ svd [0] (endF zChain [a]) q_sol hs.nj hs.fk rfl hq hw
  rw [e, Option.some.injEq] at e'
  subst e'
  refine ⟨rfl, ?_, ?_⟩
  · show st.lastTransDiff = _
    rw [t1, d1]
    simp [Vec.norm3, Vec.dot]
  · show st.lastRotDiff = _
    rw [t2, Vec.norm3, d2, Real.sqrt_sq (by linarith)]

/-- **C83 fails for the extremes of the rotational difference**, which are compared with those of the translational difference:
of two solutions that differ by 0.0008 and 0.0004 the demonstration reports 0.0004 as the largest and 10000000000 as the
smallest difference. -/
theorem C83_rot_violated (svd : ThinSvdFn) (hsvd : GoodThinSvd svd) : ∃ o1 o2 d,
    List.Forall₂ (IsTrial zChain svd) [([8 / 10000], [0]), ([4 / 10000], [0])] [o1, o2] ∧
    testInversePosKin zChain svd [([8 / 10000], [0]), ([4 / 10000], [0])] [0] [] = some d ∧
    o1.ret = 0 ∧ o2.ret = 0 ∧ o1.st.lastRotDiff = 8 / 10000 ∧ o2.st.lastRotDiff = 4 / 10000 ∧
    d.max_rot_diff = 4 / 10000 ∧ d.min_rot_diff = 10 ^ 10 := by
  obtain ⟨os, h1, -, h3⟩ := demo_run (c := zChain) ⟨rfl, rfl⟩ hsvd [([8 / 10000], [0]), ([4 / 10000], [0])] (by simp; decide) [0] rfl []
  cases h1 with
  | @cons _ o1 _ _ t1 h1 =>
  cases h1 with
  | @cons _ o2 _ _ t2 h1 =>
  cases h1
  obtain ⟨r1, a1, b1⟩ := z_trial (by norm_num) (by norm_num) t1
  obtain ⟨r2, a2, b2⟩ := z_trial (by norm_num) (by norm_num) t2
  refine ⟨o1, o2, _, .cons t1 (.cons t2 .nil), h3, r1, r2, b1, b2, ?_⟩
  simp only [List.foldl_cons, List.foldl_nil]
  obtain ⟨-, -, -, -, -, -, p7, p8, p9, p10, -⟩ := add_fields {} o1
  obtain ⟨-, -, -, -, -, -, q7, q8, q9, q10, -⟩ := add_fields (DemoStat.add {} o1) o2
  rw [a1] at p7 p8
  rw [if_neg (by norm_num)] at p7
  rw [if_pos (by norm_num)] at p8
  rw [a2, p7] at q7
  rw [if_neg (by norm_num)] at q7
  rw [a2, p8, if_neg (by norm_num)] at q8
  rw [b1, p8, if_neg (by norm_num)] at p10
  rw [q7, b2, if_pos (by norm_num)] at q9
  rw [q8, b2, if_neg (by norm_num), p10] at q10
  exact ⟨q9, q10⟩

/-- Such decompositions exist; the theorems above are not vacuous. -/
example : ∃ svd : ThinSvdFn, GoodThinSvd svd := goodThinSvd_exists

example : ∃ (svd : ThinSvdFn) (d : DemoStat), testInversePosKin zChain svd [([8 / 10000], [0]), ([4 / 10000], [0])] [0] [] = some d ∧
    0 ≤ d.total_number_of_iter := by
  obtain ⟨svd, h⟩ := goodThinSvd_exists
  obtain ⟨d, e, h0, -⟩ := C83_total (c := zChain) ⟨rfl, rfl⟩ h [([8 / 10000], [0]), ([4 / 10000], [0])] (by simp; decide) [0] rfl [] (by simp)
  exact ⟨svd, d, e, h0⟩

end KDL
