import Verif.Model.Storage
import Mathlib.Tactic.Ring
import Mathlib.Tactic.Linarith

/-! C80: construction and resizing of joint-space containers. -/

namespace KDL.Store

/-- All stored numbers of an array are known and zero. -/
def AllZero (q : List Cell) : Prop := ∀ c ∈ q, c = some 0
/-- The same for a Jacobian. -/
def AllZeroJac (J : List (Option Twist)) : Prop := ∀ c ∈ J, c = some ⟨⟨0, 0, 0⟩, ⟨0, 0, 0⟩⟩
/-- The same for a square matrix. -/
def AllZeroMat (H : MStore) : Prop := ∀ i < H.n, ∀ j < H.n, H.d i j = some 0

/-- The constructors with a size give objects of this size that hold only zeros; missing rates of change are zero and of
the same size as the positions. -/
theorem C80_construct (n : ℕ) (q qd qdd : List Cell) :
    ((jntNew n).length = n ∧ AllZero (jntNew n)) ∧
    ((jacNew n).length = n ∧ AllZeroJac (jacNew n)) ∧
    ((MStore.new n).n = n ∧ AllZeroMat (MStore.new n)) ∧
    (∀ l ∈ [(JVel.new n).q, (JVel.new n).qdot, (JAcc.new n).q, (JAcc.new n).qdot, (JAcc.new n).qdotdot],
      l.length = n ∧ AllZero l) ∧
    ((JVel.of1 q).q = q ∧ (JAcc.of1 q).q = q ∧
      ∀ l ∈ [(JVel.of1 q).qdot, (JAcc.of1 q).qdot, (JAcc.of1 q).qdotdot], l.length = q.length ∧ AllZero l) ∧
    (∀ v, JVel.of2 q qd = some v → v.q = q ∧ v.qdot = qd ∧ v.q.length = v.qdot.length) ∧
    (∀ v, JAcc.of2 q qd = some v →
      v.q = q ∧ v.qdot = qd ∧ v.q.length = v.qdot.length ∧ v.qdotdot.length = q.length ∧ AllZero v.qdotdot) ∧
    (∀ v, JAcc.of3 q qd qdd = some v →
      v.q = q ∧ v.qdot = qd ∧ v.qdotdot = qdd ∧ v.q.length = v.qdot.length ∧ v.qdot.length = v.qdotdot.length) := by
  have hz : ∀ m, (jntNew m).length = m ∧ AllZero (jntNew m) := fun m =>
    ⟨List.length_replicate, fun c hc => (List.mem_replicate.mp hc).2⟩
  refine ⟨hz n, ⟨List.length_replicate, fun c hc => (List.mem_replicate.mp hc).2⟩, ⟨rfl, fun _ _ _ _ => rfl⟩, ?_,
    ⟨rfl, rfl, ?_⟩, ?_, ?_, ?_⟩
  · intro l hl
    simp only [List.mem_cons, List.not_mem_nil, or_false, JVel.new, JAcc.new, or_self] at hl
    rw [hl]; exact hz n
  · intro l hl
    simp only [List.mem_cons, List.not_mem_nil, or_false, JVel.of1, JAcc.of1, or_self] at hl
    rw [hl]; exact hz _
  · intro v h
    rw [JVel.of2] at h
    split at h
    · cases h; exact ⟨rfl, rfl, by assumption⟩
    · cases h
  · intro v h
    rw [JAcc.of2] at h
    split at h
    · cases h; exact ⟨rfl, rfl, by assumption, hz _⟩
    · cases h
  · intro v h
    rw [JAcc.of3] at h
    split at h
    · rename_i h'; cases h; exact ⟨rfl, rfl, rfl, h'⟩
    · cases h

private theorem len_resize {α : Type} (l : List α) (n : ℕ) (x : α) :
    (l.take n ++ List.replicate (n - l.length) x).length = n := by
  simp only [List.length_append, List.length_take, List.length_replicate]; omega

/-- After `resize(n)` every container has the size `n`; the members of `JntArrayVel` and `JntArrayAcc` have the same
size, also if they had not before. -/
theorem C80_resize_size (n : ℕ) (q : List Cell) (J : List (Option Twist)) (H : MStore) (v : JVel) (a : JAcc) :
    (jntResize q n).length = n ∧ (jacResize J n).length = n ∧ (H.resize n).n = n ∧
    (v.resize n).q.length = n ∧ (v.resize n).qdot.length = n ∧
    (a.resize n).q.length = n ∧ (a.resize n).qdot.length = n ∧ (a.resize n).qdotdot.length = n := by
  refine ⟨len_resize _ _ _, len_resize _ _ _, ?_, len_resize _ _ _, len_resize _ _ _, len_resize _ _ _,
    len_resize _ _ _, len_resize _ _ _⟩
  rw [MStore.resize]
  split
  · rename_i h; exact h.symm
  · rfl

private theorem get_resize {α : Type} (l : List α) (n : ℕ) (x : α) (i : ℕ) (hi : i < n) :
    (l.take n ++ List.replicate (n - l.length) x)[i]? = some (l.getD i x) := by
  by_cases h : i < l.length
  · rw [List.getElem?_append_left (by rw [List.length_take]; omega), List.getElem?_take_of_lt hi,
      List.getElem?_eq_getElem h, List.getD_eq_getElem?_getD, List.getElem?_eq_getElem h, Option.getD_some]
  · rw [List.getElem?_append_right (by rw [List.length_take]; omega), List.getElem?_replicate,
      if_pos (by rw [List.length_take]; omega), List.getD_eq_getElem?_getD, List.getElem?_eq_none (Nat.le_of_not_lt h),
      Option.getD_none]

/-- What the containers hold after `resize(n)`: arrays keep the common part and get zeros, Jacobians keep the common part
and get columns that were never written, matrices of another size hold nothing that was written. -/
theorem C80_resize_content (n : ℕ) (q : List Cell) (J : List (Option Twist)) (H : MStore) (i : ℕ) (hi : i < n) :
    (∀ h : i < q.length, (jntResize q n)[i]? = some q[i]) ∧ (q.length ≤ i → (jntResize q n)[i]? = some (some 0)) ∧
    (∀ h : i < J.length, (jacResize J n)[i]? = some J[i]) ∧ (J.length ≤ i → (jacResize J n)[i]? = some none) ∧
    (n = H.n → H.resize n = H) ∧ (n ≠ H.n → ∀ j, (H.resize n).d i j = none) := by
  have hq := get_resize q n (some 0) i hi
  have hJ := get_resize J n none i hi
  refine ⟨fun h => ?_, fun h => ?_, fun h => ?_, fun h => ?_, fun h => ?_, fun h j => ?_⟩
  · rw [jntResize, hq, List.getD_eq_getElem?_getD, List.getElem?_eq_getElem h]; rfl
  · rw [jntResize, hq, List.getD_eq_getElem?_getD, List.getElem?_eq_none h]; rfl
  · rw [jacResize, hJ, List.getD_eq_getElem?_getD, List.getElem?_eq_getElem h]; rfl
  · rw [jacResize, hJ, List.getD_eq_getElem?_getD, List.getElem?_eq_none h]; rfl
  · rw [MStore.resize, if_pos h]
  · rw [MStore.resize, if_neg h]

/-- "all elements in data have 0 value" after `resize` (jntarray.hpp:106): if the array was empty or held only zeros, and a
matrix of the same size held only zeros.  Full statement: for every array and matrix.  Missing:
`C80_resize_violated`. -/
theorem C80_resize_zero_partial (n : ℕ) (q : List Cell) (hq : AllZero q) (H : MStore) (hH : AllZeroMat H)
    (hn : n = H.n ∨ n = 0) : AllZero (jntResize q n) ∧ AllZeroMat (H.resize n) := by
  constructor
  · intro c hc
    rw [jntResize, List.mem_append] at hc
    rcases hc with h | h
    · exact hq c (List.mem_of_mem_take h)
    · exact (List.mem_replicate.mp h).2
  · by_cases h : n = H.n
    · rw [MStore.resize, if_pos h]; exact hH
    · rcases hn with h' | h'
      · exact absurd h' h
      · intro i hi
        rw [(C80_resize_size n q [] H ⟨[], []⟩ ⟨[], [], []⟩).2.2.1] at hi
        omega

/-- **Violation.**  The documented postcondition of `resize` fails for every array that holds a number other than zero within
the new size, for every matrix whose size changes to a positive one, and for every matrix that keeps its size and was
not zero. -/
theorem C80_resize_violated (n : ℕ) (q : List Cell) (H : MStore) :
    (∀ (i : ℕ) (x : ℝ), i < n → q[i]? = some (some x) → x ≠ 0 → ¬ AllZero (jntResize q n)) ∧
    (0 < n → n ≠ H.n → ¬ AllZeroMat (H.resize n)) ∧
    (n = H.n → ¬ AllZeroMat H → ¬ AllZeroMat (H.resize n)) := by
  refine ⟨?_, ?_, ?_⟩
  · intro i x hi hx h0 hz
    obtain ⟨hl, he⟩ := List.getElem?_eq_some_iff.mp hx
    have h1 := (C80_resize_content n q [] H i hi).1 hl
    have h2 := hz _ (List.mem_of_getElem? h1)
    rw [he] at h2
    exact h0 (Option.some.inj h2)
  · intro h0 hn hz
    have hs : (H.resize n).n = n := by rw [MStore.resize, if_neg hn]
    have := hz 0 (by rw [hs]; exact h0) 0 (by rw [hs]; exact h0)
    rw [MStore.resize, if_neg hn] at this
    cases this
  · intro hn hH hz
    rw [MStore.resize, if_pos hn] at hz
    exact hH hz

/-- `SetToZero` keeps the size and clears every container, also numbers that were never written: after `resize` and
`SetToZero` the documented state is reached. -/
theorem C80_clear (q : List Cell) (J : List (Option Twist)) (H : MStore) (v : JVel) (a : JAcc) :
    ((jntZero q).length = q.length ∧ AllZero (jntZero q)) ∧ ((jacZero J).length = J.length ∧ AllZeroJac (jacZero J)) ∧
    (H.zero.n = H.n ∧ AllZeroMat H.zero) ∧
    (v.zero.q.length = v.q.length ∧ v.zero.qdot.length = v.qdot.length ∧ AllZero v.zero.q ∧ AllZero v.zero.qdot) ∧
    (a.zero.q.length = a.q.length ∧ a.zero.qdot.length = a.qdot.length ∧ a.zero.qdotdot.length = a.qdotdot.length ∧
      AllZero a.zero.q ∧ AllZero a.zero.qdot ∧ AllZero a.zero.qdotdot) := by
  have hl : ∀ l : List Cell, (jntZero l).length = l.length := fun l => List.length_map _
  have hz : ∀ l : List Cell, AllZero (jntZero l) := fun l c hc => by
    obtain ⟨_, _, h⟩ := List.mem_map.mp hc; exact h.symm
  refine ⟨⟨hl q, hz q⟩, ⟨List.length_map _, fun c hc => ?_⟩, ⟨rfl, fun _ _ _ _ => rfl⟩,
    ⟨hl _, hl _, hz _, hz _⟩, ⟨hl _, hl _, hl _, hz _, hz _, hz _⟩⟩
  obtain ⟨_, _, h⟩ := List.mem_map.mp hc
  exact h.symm

private theorem loop_spec {f : List ℝ → ℕ → ℝ} {g : ℕ → ℝ} {v₀ : List ℝ}
    (hf : ∀ (v : List ℝ) (k i : ℕ), v.length = v₀.length → k ≤ i → i < v₀.length →
      (∀ j, k ≤ j → j < v₀.length → v.getD j 0 = v₀.getD j 0) → f v i = g i) :
    ∀ (b : List ℕ) (k : ℕ) (v : List ℝ), v.length = v₀.length →
      (∀ j, j < k → j < v₀.length → v.getD j 0 = g j) → (∀ j, k ≤ j → j < v₀.length → v.getD j 0 = v₀.getD j 0) →
      k + b.sum = v₀.length → assignLoop f b k v = (List.range v₀.length).map g := by
  intro b
  induction b with
  | nil =>
    intro k v hl h1 _ hk
    simp only [List.sum_nil, Nat.add_zero] at hk
    rw [assignLoop]
    apply List.ext_getElem
    · rw [hl, List.length_map, List.length_range]
    · intro i hi _
      have := h1 i (by omega) (by omega)
      rw [List.getD_eq_getElem?_getD, List.getElem?_eq_getElem hi, Option.getD_some] at this
      rw [this, List.getElem_map, List.getElem_range]
  | cons w ws ih =>
    intro k v hl h1 h2 hk
    rw [List.sum_cons] at hk
    rw [assignLoop]
    have hget : ∀ j, j < v₀.length →
        (v.mapIdx fun i x => if k ≤ i ∧ i < k + w then f v i else x).getD j 0 =
          if k ≤ j ∧ j < k + w then f v j else v.getD j 0 := by
      intro j hj
      rw [List.getD_eq_getElem?_getD, List.getElem?_mapIdx, List.getD_eq_getElem?_getD,
        List.getElem?_eq_getElem (by omega)]
      rfl
    apply ih
    · rw [List.length_mapIdx, hl]
    · intro j hj hj'
      rw [hget j hj']
      by_cases h : k ≤ j
      · rw [if_pos ⟨h, hj⟩]
        exact hf v k j hl h hj' h2
      · rw [if_neg (fun h' => h h'.1)]
        exact h1 j (by omega) hj'
    · intro j hj hj'
      rw [hget j hj', if_neg (by omega)]
      exact h2 j (by omega) hj'
    · omega

/-- `Add`, `Subtract`, `Multiply` and `Divide` by a number are aliasing-safe, as documented (jntspaceinertiamatrix.hpp:150–190,
jntarray.hpp:155–197), for every grouping of the coefficients: with the destination as the first operand `v`, as the
second one, or as both. -/
theorem C80_aliasing (b : List ℕ) (v o : List ℝ) (c : ℝ) (hb : b.sum = v.length) :
    assignLoop (fun v => addC v o) b 0 v = (List.range v.length).map (fun i => v.getD i 0 + o.getD i 0) ∧
    assignLoop (fun v => addC o v) b 0 v = (List.range v.length).map (fun i => o.getD i 0 + v.getD i 0) ∧
    assignLoop (fun v => addC v v) b 0 v = (List.range v.length).map (fun i => v.getD i 0 + v.getD i 0) ∧
    assignLoop (fun v => subC v o) b 0 v = (List.range v.length).map (fun i => v.getD i 0 - o.getD i 0) ∧
    assignLoop (fun v => subC o v) b 0 v = (List.range v.length).map (fun i => o.getD i 0 - v.getD i 0) ∧
    assignLoop (fun v => subC v v) b 0 v = (List.range v.length).map (fun _ => 0) ∧
    assignLoop (fun v => mulC c v) b 0 v = (List.range v.length).map (fun i => c * v.getD i 0) ∧
    assignLoop (fun v => divC c v) b 0 v = (List.range v.length).map (fun i => v.getD i 0 / c) := by
  have key : ∀ (f : List ℝ → ℕ → ℝ) (g : ℕ → ℝ),
      (∀ (u : List ℝ) (i : ℕ), u.getD i 0 = v.getD i 0 → f u i = g i) →
      assignLoop f b 0 v = (List.range v.length).map g := by
    intro f g h
    exact loop_spec (fun u k i _ hk hi hu => h u i (hu i hk hi)) b 0 v rfl (fun j hj => absurd hj (Nat.not_lt_zero j))
      (fun _ _ _ => rfl) (by omega)
  refine ⟨key _ _ ?_, key _ _ ?_, key _ _ ?_, key _ _ ?_, key _ _ ?_, key _ _ ?_, key _ _ ?_, key _ _ ?_⟩ <;>
    intro u i h <;> simp only [addC, subC, mulC, divC, h, sub_self]

/-- `Multiply(H, vec, dest)` into another array gives the product; in place it gives the product if all coefficients are
computed before the first is stored.  Full statement: for every grouping.  Missing: `C80_mul_violated`. -/
theorem C80_mul_partial (H : JMat) (v : List ℝ) (hn : H.n = v.length) :
    (∃ r, mulVec H v = some r ∧ r.length = v.length ∧
      ∀ i < v.length, r.getD i 0 = ((List.range v.length).map fun j => H.d i j * v.getD j 0).sum) ∧
    mulVecInPlace [v.length] H v = mulVec H v := by
  constructor
  · refine ⟨_, by rw [mulVec, if_pos hn], by rw [List.length_map, List.length_range, hn], ?_⟩
    intro i hi
    rw [List.getD_eq_getElem?_getD, List.getElem?_map, List.getElem?_range (by omega)]
    simp only [Option.map_some, Option.getD_some, coeff, hn]
  · rw [mulVecInPlace, mulVec, if_pos hn, if_pos hn, assignLoop, assignLoop]
    congr 1
    apply List.ext_getElem
    · rw [List.length_mapIdx, List.length_map, List.length_range, hn]
    · intro i hi _
      rw [List.length_mapIdx] at hi
      rw [List.getElem_mapIdx, if_pos ⟨Nat.zero_le i, by omega⟩, List.getElem_map, List.getElem_range]

/-- **Violation.**  In place the product is wrong for some matrix whenever at least two coefficients are computed at
different times (groups of widths `w₁` and `w₂`): row `w₁` is `(1, 0, …)`, the other rows are zero, and the first entry of
the array is overwritten before it is used. -/
theorem C80_mul_violated (w₁ w₂ : ℕ) (h₁ : 0 < w₁) (h₂ : 0 < w₂) :
    ∃ (H : JMat) (v : List ℝ), H.n = w₁ + w₂ ∧ v.length = w₁ + w₂ ∧ mulVecInPlace [w₁, w₂] H v ≠ mulVec H v := by
  let H : JMat := ⟨w₁ + w₂, fun i j => if i = w₁ ∧ j = 0 then 1 else 0⟩
  let v : List ℝ := List.replicate (w₁ + w₂) 1
  have hv : v.length = w₁ + w₂ := List.length_replicate
  refine ⟨H, v, rfl, hv, ?_⟩
  have hc : ∀ (u : List ℝ), coeff H u w₁ = u.getD 0 0 := by
    intro u
    rw [coeff]
    have : ∀ m, 0 < m → ((List.range m).map fun j => H.d w₁ j * u.getD j 0).sum = u.getD 0 0 := by
      intro m hm
      induction m with
      | zero => omega
      | succ m ih =>
        rw [List.range_succ, List.map_append, List.sum_append, List.map_singleton, List.sum_singleton]
        rcases Nat.eq_zero_or_pos m with h | h
        · subst h; simp [H]
        · rw [ih h]
          have h0 : H.d w₁ m = 0 := if_neg (by omega)
          rw [h0, zero_mul, add_zero]
    exact this H.n (by show 0 < w₁ + w₂; omega)
  have hc0 : ∀ (u : List ℝ), coeff H u 0 = 0 := by
    intro u
    rw [coeff]
    apply List.sum_eq_zero
    intro x hx
    obtain ⟨j, -, rfl⟩ := List.mem_map.mp hx
    have : ¬ (0 = w₁ ∧ j = 0) := by omega
    simp only [H, if_neg this, zero_mul]
  have hn : H.n = v.length := hv.symm
  rw [mulVecInPlace, mulVec, if_pos hn, if_pos hn]
  intro he
  have he := congrArg (fun l : List ℝ => l.getD w₁ 0) (Option.some.inj he)
  have hr : ((List.range H.n).map (coeff H v)).getD w₁ 0 = 1 := by
    rw [List.getD_eq_getElem?_getD, List.getElem?_map, List.getElem?_range (by show w₁ < w₁ + w₂; omega)]
    simp only [Option.map_some, Option.getD_some]
    rw [hc, List.getD_eq_getElem?_getD, List.getElem?_replicate, if_pos (by omega)]; rfl
  have hl : (assignLoop (coeff H) [w₁, w₂] 0 v).getD w₁ 0 = 0 := by
    simp only [assignLoop, Nat.zero_add]
    rw [List.getD_eq_getElem?_getD, List.getElem?_mapIdx, List.getElem?_eq_getElem (by rw [List.length_mapIdx]; omega)]
    simp only [Option.map_some, Option.getD_some]
    rw [if_pos ⟨Nat.le_refl _, by omega⟩, hc, List.getD_eq_getElem?_getD, List.getElem?_mapIdx,
      List.getElem?_eq_getElem (by omega)]
    simp only [Option.map_some, Option.getD_some]
    rw [if_pos ⟨Nat.le_refl _, h₁⟩, hc0]
  rw [hl, hr] at he
  exact zero_ne_one he

example : ¬ AllZero (jntResize [some 5] 3) :=
  (C80_resize_violated 3 [some 5] (MStore.new 0)).1 0 5 (by omega) rfl (by norm_num)
example : AllZero (jntResize (jntNew 2) 5) ∧ (jntResize (jntNew 2) 5).length = 5 :=
  ⟨(C80_resize_zero_partial 5 _ (C80_construct 2 [] [] []).1.2 (MStore.new 5) (fun _ _ _ _ => rfl) (Or.inl rfl)).1,
   (C80_resize_size 5 _ [] (MStore.new 0) ⟨[], []⟩ ⟨[], [], []⟩).1⟩
example : mulVec ⟨2, fun i j => if i = j then 2 else 1⟩ [3, 4] = some [10, 11] := by
  simp [mulVec, coeff, List.range_succ]; norm_num
end KDL.Store
