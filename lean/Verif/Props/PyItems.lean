import Verif.Model.PyBind
import Verif.Props.TreeKin
import Mathlib.Tactic.IntervalCases

/-! C79: element access through the Python bindings. -/

namespace KDL

/-- The index fits into a C++ `int`. -/
def FitsInt (i : ℤ) : Prop := -2 ^ 31 ≤ i ∧ i < 2 ^ 31

/-- What Python users expect of `x[i]` for an object with the components `l` (negative indices are not supported). -/
def ItemSpec (l : List ℝ) (i : ℤ) (r : Py ℝ) : Prop :=
  (¬ FitsInt i → r = some (.error .typeError)) ∧
  (FitsInt i → ¬ (0 ≤ i ∧ i < l.length) → r = some (.error .indexError)) ∧
  ∀ k : ℕ, i = k → FitsInt i → ∀ h : k < l.length, r = some (.ok l[k])

/-- What Python users expect of `x[i] = a`, where `l` and `l'` are the components before and after: the components change
in one place, or not at all with the same exception as for reading. -/
def SetSpec (l : List ℝ) (i : ℤ) (a : ℝ) (r : Except PyErr Unit) (l' : List ℝ) : Prop :=
  (¬ FitsInt i → r = .error .typeError ∧ l' = l) ∧
  (FitsInt i → ¬ (0 ≤ i ∧ i < l.length) → r = .error .indexError ∧ l' = l) ∧
  ∀ k : ℕ, i = k → FitsInt i → k < l.length → r = .ok () ∧ l' = l.set k a

/-- The same for a matrix `m` (entry `m r c`) with the index pair `[i, j]`. -/
def ItemSpec2 (rows cols : ℕ) (m : ℕ → ℕ → ℝ) (i j : ℤ) (r : Py ℝ) : Prop :=
  (¬ (FitsInt i ∧ FitsInt j) → r = some (.error .typeError)) ∧
  (FitsInt i → FitsInt j → ¬ ((0 ≤ i ∧ i < rows) ∧ (0 ≤ j ∧ j < cols)) → r = some (.error .indexError)) ∧
  ∀ a b : ℕ, i = a → j = b → FitsInt i → FitsInt j → a < rows → b < cols → r = some (.ok (m a b))

/-- The same for writing an element of a matrix. -/
def SetSpec2 (rows cols : ℕ) (m : ℕ → ℕ → ℝ) (i j : ℤ) (x : ℝ) (r : Except PyErr Unit) (m' : ℕ → ℕ → ℝ) : Prop :=
  (¬ (FitsInt i ∧ FitsInt j) → r = .error .typeError ∧ ∀ a < rows, ∀ b < cols, m' a b = m a b) ∧
  (FitsInt i → FitsInt j → ¬ ((0 ≤ i ∧ i < rows) ∧ (0 ≤ j ∧ j < cols)) →
    r = .error .indexError ∧ ∀ a < rows, ∀ b < cols, m' a b = m a b) ∧
  (FitsInt i → FitsInt j → (0 ≤ i ∧ i < rows) → (0 ≤ j ∧ j < cols) →
    r = .ok () ∧ ∀ a < rows, ∀ b < cols, m' a b = if i = a ∧ j = b then x else m a b)

/-- Components in index order. -/
def Vec.items (v : Vec) : List ℝ := [v.x, v.y, v.z]
/-- Components in index order: linear velocity, then angular velocity. -/
def Twist.items (t : Twist) : List ℝ := [t.vel.x, t.vel.y, t.vel.z, t.rot.x, t.rot.y, t.rot.z]
/-- Components in index order: force, then torque. -/
def Wrench.items (w : Wrench) : List ℝ :=
  [w.force.x, w.force.y, w.force.z, w.torque.x, w.torque.y, w.torque.z]
/-- The nine numbers of an inertia tensor, column after column. -/
def Mat3.items (I : Mat3) : List ℝ := [I.a00, I.a10, I.a20, I.a01, I.a11, I.a21, I.a02, I.a12, I.a22]
/-- Entry of a rotation matrix. -/
def Rot.mat (R : Rot) (i j : ℕ) : ℝ :=
  (([[R.m00, R.m01, R.m02], [R.m10, R.m11, R.m12], [R.m20, R.m21, R.m22]].getD i []).getD j 0)
/-- Entry of the upper three rows of the homogeneous matrix. -/
def Frame.mat (F : Frame) (i j : ℕ) : ℝ :=
  (([[F.M.m00, F.M.m01, F.M.m02, F.p.x], [F.M.m10, F.M.m11, F.M.m12, F.p.y],
     [F.M.m20, F.M.m21, F.M.m22, F.p.z]].getD i []).getD j 0)
/-- Entry of a Jacobian: component `i` of column `j`. -/
def Jac.mat (J : Jac) (i j : ℕ) : ℝ := (J.getD j 0).items.getD i 0

private theorem withInt_bad {α : Type} {i : ℤ} (h : ¬ FitsInt i) (f : ℤ → Py α) :
    withInt i f = some (.error .typeError) := by
  unfold FitsInt at h; simp only [withInt, argInt]; rw [if_neg h]
private theorem withInt_ok {α : Type} {i : ℤ} (h : FitsInt i) (f : ℤ → Py α) : withInt i f = f i := by
  unfold FitsInt at h; simp only [withInt, argInt]; rw [if_pos h]
private theorem setInt_bad {α : Type} {i : ℤ} (h : ¬ FitsInt i) (x : α) (f : ℤ → Option (Except PyErr Unit × α)) :
    setInt x i f = some (.error .typeError, x) := by
  unfold FitsInt at h; simp only [setInt, argInt]; rw [if_neg h]; rfl
private theorem setInt_ok {α : Type} {i : ℤ} (h : FitsInt i) (x : α) (f : ℤ → Option (Except PyErr Unit × α)) :
    setInt x i f = f i := by
  unfold FitsInt at h; simp only [setInt, argInt]; rw [if_pos h]

private theorem withUInt_ok {α : Type} {k : ℕ} (hk : (k : ℤ) < 2 ^ 32) (f : ℕ → Py α) : withUInt (k : ℤ) f = f k := by
  have h : argUInt (k : ℤ) = .ok k := by
    rw [argUInt, if_pos ⟨Int.natCast_nonneg k, hk⟩, Int.toNat_natCast]
  rw [withUInt, h]

/-- One-dimensional getters: the index check followed by a total read. -/
private theorem item_of {l : List ℝ} {g : ℤ → Py ℝ} {r : Py ℝ} {i : ℤ} (hr : r = withInt i g)
    (hout : ¬ (0 ≤ i ∧ i < l.length) → g i = some (.error .indexError))
    (hin : ∀ k : ℕ, (h : k < l.length) → g k = some (.ok l[k])) : ItemSpec l i r := by
  refine ⟨fun h => by rw [hr, withInt_bad h], fun h h' => by rw [hr, withInt_ok h, hout h'], ?_⟩
  rintro k rfl hk h
  rw [hr, withInt_ok hk, hin k h]

private theorem set_of {α : Type} {c : α → List ℝ} {x : α} {s : ℤ → Option (Except PyErr Unit × α)} {i : ℤ} {a : ℝ}
    (hout : ¬ (0 ≤ i ∧ i < (c x).length) → s i = some (.error .indexError, x))
    (hin : ∀ k : ℕ, k < (c x).length → ∃ x', s k = some (.ok (), x') ∧ c x' = (c x).set k a) :
    ∃ r x', setInt x i s = some (r, x') ∧ SetSpec (c x) i a r (c x') := by
  by_cases hf : FitsInt i
  · rw [setInt_ok hf]
    by_cases hi : 0 ≤ i ∧ i < (c x).length
    · obtain ⟨k, rfl⟩ := Int.eq_ofNat_of_zero_le hi.1
      have hk : k < (c x).length := by exact_mod_cast hi.2
      obtain ⟨x', h1, h2⟩ := hin k hk
      refine ⟨_, _, h1, fun h => absurd hf h, fun _ h => absurd hi h, ?_⟩
      intro k' e _ _
      have : k' = k := by exact_mod_cast e.symm
      rw [this]; exact ⟨rfl, h2⟩
    · refine ⟨_, _, hout hi, fun h => absurd hf h, fun _ _ => ⟨rfl, rfl⟩, ?_⟩
      rintro k rfl _ hk
      exact absurd ⟨Int.natCast_nonneg k, by exact_mod_cast hk⟩ hi
  · refine ⟨_, _, setInt_bad hf x s, fun _ => ⟨rfl, rfl⟩, fun h => absurd h hf, fun k e h _ => absurd h hf⟩

/-- Vectors, twists, wrenches, inertia tensors and joint arrays: `x[i]` is component `i`, an index outside the object
raises `IndexError`, one that is not an `int` raises `TypeError`; no access is undefined. -/
theorem C79_getitem (i : ℤ) (v : Vec) (t : Twist) (w : Wrench) (I : Mat3) (q : List ℝ) :
    ItemSpec v.items i (v.pyGet i) ∧ ItemSpec t.items i (t.pyGet i) ∧ ItemSpec w.items i (w.pyGet i) ∧
    ItemSpec I.items i (I.pyGet i) ∧ ItemSpec q i (pyGetJnt q i) := by
  refine ⟨item_of rfl ?_ ?_, item_of rfl ?_ ?_, item_of rfl ?_ ?_, item_of rfl ?_ ?_, item_of rfl ?_ ?_⟩
  · intro h; rw [if_pos]; simp only [Vec.items, List.length_cons, List.length_nil] at h; omega
  · intro k h
    simp only [Vec.items, List.length_cons, List.length_nil] at h
    interval_cases k <;> rfl
  · intro h; rw [if_pos]; simp only [Twist.items, List.length_cons, List.length_nil] at h; omega
  · intro k h
    simp only [Twist.items, List.length_cons, List.length_nil] at h
    interval_cases k <;> rfl
  · intro h; rw [if_pos]; simp only [Wrench.items, List.length_cons, List.length_nil] at h; omega
  · intro k h
    simp only [Wrench.items, List.length_cons, List.length_nil] at h
    interval_cases k <;> rfl
  · intro h; rw [if_pos]; simp only [Mat3.items, List.length_cons, List.length_nil] at h; omega
  · intro k h
    simp only [Mat3.items, List.length_cons, List.length_nil] at h
    interval_cases k <;> rfl
  · intro h; rw [if_pos]; omega
  · intro k h
    rw [if_neg (by omega)]
    simp [List.getElem?_eq_getElem h]

/-- Writing: exactly the component of the index changes; with an exception nothing changes. -/
theorem C79_setitem (i : ℤ) (a : ℝ) (v : Vec) (t : Twist) (w : Wrench) (I : Mat3) (q : List ℝ) :
    (∃ r v', v.pySet i a = some (r, v') ∧ SetSpec v.items i a r v'.items) ∧
    (∃ r t', t.pySet i a = some (r, t') ∧ SetSpec t.items i a r t'.items) ∧
    (∃ r w', w.pySet i a = some (r, w') ∧ SetSpec w.items i a r w'.items) ∧
    (∃ r I', I.pySet i a = some (r, I') ∧ SetSpec I.items i a r I'.items) ∧
    (∃ r q', pySetJnt q i a = some (r, q') ∧ SetSpec q i a r q') := by
  refine ⟨set_of (c := Vec.items) ?_ ?_, set_of (c := Twist.items) ?_ ?_, set_of (c := Wrench.items) ?_ ?_,
    set_of (c := Mat3.items) ?_ ?_, set_of (c := id) ?_ ?_⟩
  · intro h; rw [if_pos]; · rfl
    simp only [Vec.items, List.length_cons, List.length_nil] at h; omega
  · intro k h
    simp only [Vec.items, List.length_cons, List.length_nil] at h
    interval_cases k <;> exact ⟨_, rfl, rfl⟩
  · intro h; rw [if_pos]; · rfl
    simp only [Twist.items, List.length_cons, List.length_nil] at h; omega
  · intro k h
    simp only [Twist.items, List.length_cons, List.length_nil] at h
    interval_cases k <;> exact ⟨_, rfl, rfl⟩
  · intro h; rw [if_pos]; · rfl
    simp only [Wrench.items, List.length_cons, List.length_nil] at h; omega
  · intro k h
    simp only [Wrench.items, List.length_cons, List.length_nil] at h
    interval_cases k <;> exact ⟨_, rfl, rfl⟩
  · intro h; rw [if_pos]; · rfl
    simp only [Mat3.items, List.length_cons, List.length_nil] at h; omega
  · intro k h
    simp only [Mat3.items, List.length_cons, List.length_nil] at h
    interval_cases k <;> exact ⟨_, rfl, rfl⟩
  · intro h; rw [if_pos]; · rfl
    simp only [id] at h; omega
  · intro k h
    simp only [id] at h ⊢
    rw [if_neg (by omega), Int.toNat_natCast, if_pos h]
    exact ⟨_, rfl, rfl⟩

private theorem item2_of {rows cols : ℕ} {m : ℕ → ℕ → ℝ} {g : ℤ → ℤ → Py ℝ} {r : Py ℝ} {i j : ℤ}
    (hr : r = withInt2 i j g)
    (hout : ¬ ((0 ≤ i ∧ i < rows) ∧ (0 ≤ j ∧ j < cols)) → g i j = some (.error .indexError))
    (hin : ∀ a b : ℕ, a < rows → b < cols → g a b = some (.ok (m a b))) : ItemSpec2 rows cols m i j r := by
  refine ⟨fun h => ?_, fun hi hj h => ?_, ?_⟩
  · rw [hr, withInt2]
    by_cases hi : FitsInt i
    · rw [withInt_ok hi, withInt_bad (fun hj => h ⟨hi, hj⟩)]
    · rw [withInt_bad hi]
  · rw [hr, withInt2, withInt_ok hi, withInt_ok hj, hout h]
  · rintro a b rfl rfl hi hj ha hb
    rw [hr, withInt2, withInt_ok hi, withInt_ok hj, hin a b ha hb]

/-- Rotations, frames, Jacobians and joint space inertia matrices: `x[i, j]`.  The last row of a frame is not
accessible. -/
theorem C79_getitem2 (i j : ℤ) (R : Rot) (F : Frame) (J : Jac) (H : JMat) :
    ItemSpec2 3 3 R.mat i j (R.pyGet i j) ∧ ItemSpec2 3 4 F.mat i j (F.pyGet i j) ∧
    ItemSpec2 6 J.length (Jac.mat J) i j (Jac.pyGet J i j) ∧ ItemSpec2 H.n H.n H.d i j (H.pyGet i j) := by
  refine ⟨item2_of rfl ?_ ?_, item2_of rfl ?_ ?_, item2_of rfl ?_ ?_, item2_of rfl ?_ ?_⟩
  · intro h; rw [if_pos]; push_cast at h; omega
  · intro a b ha hb; interval_cases a <;> interval_cases b <;> rfl
  · intro h; rw [if_pos]; push_cast at h; omega
  · intro a b ha hb; interval_cases a <;> interval_cases b <;> rfl
  · intro h; rw [if_pos]; push_cast at h; omega
  · intro a b ha hb
    rw [if_neg (by omega)]
    simp only [Int.toNat_natCast, Jac.at2, List.getElem?_eq_getElem hb, Jac.mat, List.getD_eq_getElem?_getD]
    interval_cases a <;> rfl
  · intro h; rw [if_pos]; omega
  · intro a b ha hb
    rw [if_neg (by omega), JMat.get, if_pos (by omega)]
    rfl

private theorem set2_of {α : Type} {rows cols : ℕ} {c : α → ℕ → ℕ → ℝ} {x : α}
    {s : ℤ → ℤ → Option (Except PyErr Unit × α)} {i j : ℤ} {v : ℝ} {P : α → Prop} (hx : P x)
    (hout : ¬ ((0 ≤ i ∧ i < rows) ∧ (0 ≤ j ∧ j < cols)) → s i j = some (.error .indexError, x))
    (hin : ∀ p q : ℕ, p < rows → q < cols → ∃ x', s p q = some (.ok (), x') ∧
      (∀ a < rows, ∀ b < cols, c x' a b = if p = a ∧ q = b then v else c x a b) ∧ P x') :
    ∃ r x', setInt2 x i j s = some (r, x') ∧ SetSpec2 rows cols (c x) i j v r (c x') ∧ P x' := by
  unfold setInt2
  by_cases hi : FitsInt i
  · rw [setInt_ok hi]
    by_cases hj : FitsInt j
    · rw [setInt_ok hj]
      by_cases h : (0 ≤ i ∧ i < rows) ∧ (0 ≤ j ∧ j < cols)
      · obtain ⟨p, rfl⟩ := Int.eq_ofNat_of_zero_le h.1.1
        obtain ⟨q, rfl⟩ := Int.eq_ofNat_of_zero_le h.2.1
        obtain ⟨x', h1, h2, h3⟩ := hin p q (by exact_mod_cast h.1.2) (by exact_mod_cast h.2.2)
        refine ⟨_, _, h1, ⟨fun h => absurd ⟨hi, hj⟩ h, fun _ _ h' => absurd h h', fun _ _ _ _ => ⟨rfl, ?_⟩⟩, h3⟩
        intro a ha b hb
        rw [h2 a ha b hb]
        simp only [Nat.cast_inj]
      · exact ⟨_, _, hout h, ⟨fun h => absurd ⟨hi, hj⟩ h, fun _ _ _ => ⟨rfl, fun _ _ _ _ => rfl⟩,
          fun _ _ h1 h2 => absurd ⟨h1, h2⟩ h⟩, hx⟩
    · exact ⟨_, _, setInt_bad hj _ _,
        ⟨fun _ => ⟨rfl, fun _ _ _ _ => rfl⟩, fun _ h => absurd h hj, fun _ h => absurd h hj⟩, hx⟩
  · exact ⟨_, _, setInt_bad hi _ _,
      ⟨fun _ => ⟨rfl, fun _ _ _ _ => rfl⟩, fun h => absurd h hi, fun h => absurd h hi⟩, hx⟩

private theorem twist_setData (t : Twist) (k : ℕ) (hk : k < 6) (a : ℝ) :
    ∃ t', t.setData k a = some t' ∧ t'.items = t.items.set k a := by
  interval_cases k <;> exact ⟨_, rfl, rfl⟩

/-- Writing an element of a matrix changes this element only; with an exception nothing changes. -/
theorem C79_setitem2 (i j : ℤ) (x : ℝ) (R : Rot) (F : Frame) (J : Jac) (H : JMat) :
    (∃ r R', R.pySet i j x = some (r, R') ∧ SetSpec2 3 3 R.mat i j x r R'.mat) ∧
    (∃ r F', F.pySet i j x = some (r, F') ∧ SetSpec2 3 4 F.mat i j x r F'.mat) ∧
    (∃ r J', Jac.pySet J i j x = some (r, J') ∧ SetSpec2 6 J.length (Jac.mat J) i j x r (Jac.mat J') ∧
      J'.length = J.length) ∧
    (∃ r H', H.pySet i j x = some (r, H') ∧ SetSpec2 H.n H.n H.d i j x r H'.d ∧ H'.n = H.n) := by
  have hR := set2_of (c := Rot.mat) (x := R) (rows := 3) (cols := 3) (i := i) (j := j) (v := x) (P := fun _ => True)
    (s := fun i j => if i < 0 ∨ i > 2 ∨ j < 0 ∨ j > 2 then setErr .indexError R else setOk (R.setData (i * 3 + j) x))
    trivial (by intro h; rw [if_pos]; · rfl
                push_cast at h; omega)
    (by intro p q hp hq
        interval_cases p <;> interval_cases q <;> refine ⟨_, rfl, ?_, trivial⟩ <;> intro a ha b hb <;>
          interval_cases a <;> interval_cases b <;> rfl)
  have hF := set2_of (c := Frame.mat) (x := F) (rows := 3) (cols := 4) (i := i) (j := j) (v := x) (P := fun _ => True)
    (s := fun i j => if i < 0 ∨ i > 2 ∨ j < 0 ∨ j > 3 then setErr .indexError F
      else if j = 3 then setOk ((F.p.setData i x).map fun p => { F with p := p })
      else setOk ((F.M.setData (i * 3 + j) x).map fun M => { F with M := M }))
    trivial (by intro h; rw [if_pos]; · rfl
                push_cast at h; omega)
    (by intro p q hp hq
        interval_cases p <;> interval_cases q <;> refine ⟨_, rfl, ?_, trivial⟩ <;> intro a ha b hb <;>
          interval_cases a <;> interval_cases b <;> rfl)
  refine ⟨?_, ?_, set2_of (c := Jac.mat) (P := fun J' => J'.length = J.length) rfl ?_ ?_,
    set2_of (c := JMat.d) (P := fun H' => H'.n = H.n) rfl ?_ ?_⟩
  · obtain ⟨r, R', h1, h2, -⟩ := hR; exact ⟨r, R', h1, h2⟩
  · obtain ⟨r, F', h1, h2, -⟩ := hF; exact ⟨r, F', h1, h2⟩
  · intro h; rw [if_pos]; · rfl
    push_cast at h; omega
  · intro p q hp hq
    obtain ⟨t', h1, h2⟩ := twist_setData J[q] p hp x
    refine ⟨J.set q t', ?_, ?_, List.length_set⟩
    · rw [if_neg (by omega)]
      simp only [Int.toNat_natCast, Jac.setAt2, List.getElem?_eq_getElem hq, Option.bind_eq_bind, Option.bind_some]
      rw [if_pos hp, h1]
      rfl
    · intro a ha b hb
      simp only [Jac.mat, List.getD_eq_getElem?_getD, List.getElem?_set]
      by_cases hqb : q = b
      · subst hqb
        rw [if_pos rfl, if_pos hq, Option.getD_some, h2, List.getElem?_eq_getElem hq, Option.getD_some,
          List.getElem?_set]
        have hl : J[q].items.length = 6 := rfl
        by_cases hpa : p = a
        · subst hpa; rw [if_pos rfl, if_pos (by omega), if_pos ⟨rfl, rfl⟩]; rfl
        · rw [if_neg hpa, if_neg (fun h => hpa h.1)]
      · rw [if_neg hqb, if_neg (fun h => hqb h.2)]
  · intro h; rw [if_pos]; · rfl
    omega
  · intro p q hp hq
    rw [if_neg (by omega), JMat.set, if_pos (by omega)]
    refine ⟨_, rfl, ?_, rfl⟩
    intro a ha b hb
    simp only [Int.toNat_natCast]
    by_cases h : p = a ∧ q = b
    · rw [if_pos h, if_pos ⟨h.1.symm, h.2.symm⟩]
    · rw [if_neg h, if_neg (fun h' => h ⟨h'.1.symm, h'.2.symm⟩)]

/-- `list(x)`: Python's iteration by index ends at `IndexError` and gives the components in order. -/
theorem C79_list (l : List ℝ) (hl : l.length < 2 ^ 31) (get : ℤ → Py ℝ) (h : ∀ i, ItemSpec l i (get i)) (fuel : ℕ)
    (hf : l.length < fuel) : pyList get fuel 0 = some (.ok l) := by
  have key : ∀ (n k fuel : ℕ), l.length - k = n → k ≤ l.length → n < fuel →
      pyList get fuel k = some (.ok (l.drop k)) := by
    intro n
    induction n with
    | zero =>
      intro k fuel h1 h2 h3
      obtain ⟨f, rfl⟩ : ∃ f, fuel = f + 1 := ⟨fuel - 1, by omega⟩
      have hk : k = l.length := by omega
      have hfit : FitsInt (k : ℤ) := ⟨by omega, by omega⟩
      rw [pyList, (h k).2.1 hfit (by omega), hk, List.drop_length]
    | succ n ih =>
      intro k fuel h1 h2 h3
      obtain ⟨f, rfl⟩ : ∃ f, fuel = f + 1 := ⟨fuel - 1, by omega⟩
      have hfit : FitsInt (k : ℤ) := ⟨by omega, by omega⟩
      have hk : k < l.length := by omega
      have := ih (k + 1) f (by omega) (by omega) (by omega)
      push_cast at this
      rw [pyList, (h k).2.2 k rfl hfit hk]
      dsimp only
      rw [this]
      dsimp only
      rw [List.drop_eq_getElem_cons hk]
  exact key l.length 0 fuel (by omega) (Nat.zero_le _) hf

/-- The accessors `Chain.getSegment`, `Jacobian.getColumn` and `Jacobian.setColumn` inside the range.  Full statement: an
index outside the range raises an exception.  Missing: there the access is undefined (`C79_unchecked_violated`). -/
theorem C79_unchecked_partial (c : Chain) (J : Jac) (t : Twist) (k : ℕ) (hk : (k : ℤ) < 2 ^ 32) :
    (∀ h : k < c.segments.length, pyGetSegment c k = some (.ok c.segments[k])) ∧
    (∀ h : k < J.length, pyGetColumn J k = some (.ok J[k]) ∧ pySetColumn J k t = some (.ok (J.set k t))) := by
  have hu := fun {α : Type} (f : ℕ → Py α) => withUInt_ok hk f
  refine ⟨fun h => ?_, fun h => ⟨?_, ?_⟩⟩
  · rw [pyGetSegment, hu, Chain.getSegment, List.getElem?_eq_getElem h]; rfl
  · rw [pyGetColumn, hu, List.getElem?_eq_getElem h]; rfl
  · rw [pySetColumn, hu, Jac.setColumn, if_pos h]; rfl

/-- **Violation.**  The same accessors with an index beyond the end do not raise an exception; they access memory outside
the object.  For every object and every index of C++ type `unsigned int` beyond its end. -/
theorem C79_unchecked_violated (c : Chain) (J : Jac) (t : Twist) (k : ℕ) (hk : (k : ℤ) < 2 ^ 32) :
    (c.segments.length ≤ k → pyGetSegment c k = none) ∧
    (J.length ≤ k → pyGetColumn J k = none ∧ pySetColumn J k t = none) := by
  have hu := fun {α : Type} (f : ℕ → Py α) => withUInt_ok hk f
  refine ⟨fun h => ?_, fun h => ⟨?_, ?_⟩⟩
  · rw [pyGetSegment, hu, Chain.getSegment, List.getElem?_eq_none h]; rfl
  · rw [pyGetColumn, hu, List.getElem?_eq_none h]; rfl
  · rw [pySetColumn, hu, Jac.setColumn, if_neg (by omega)]; rfl

/-- `Tree.getChain` from the root: the segments on the way to the tip.  Full statement: also an exception (or `None`) for
names that are not in the tree.  Missing: `C79_getChain_violated`. -/
theorem C79_getChain_partial (t : Tree) (h : t.Reach) (e : String) (B : List TreeElem) (hB : Tree.Path t e B) :
    ∃ c, pyGetChain t t.root_name e = some (.ok c) ∧ c.segments = B.map TreeElem.segment := by
  obtain ⟨c, h1, -, h3⟩ := Tree.C33_from_root t h e B hB
  exact ⟨c, by rw [pyGetChain, h1]; rfl, h3⟩

/-- **Violation.**  The failure of `Tree::getChain` does not reach Python: for a name that is not in the tree the result
is an empty chain, the same as for a chain from a segment to itself. -/
theorem C79_getChain_violated (t : Tree) (h : t.Reach) (r e : String) (hn : r ∉ t.names ∨ e ∉ t.names) :
    pyGetChain t r e = some (.ok Chain.empty) := by
  rw [pyGetChain, Tree.C33_unknown t h r e hn]; rfl

example : (⟨1, 2, 3⟩ : Vec).pyGet (-1) = some (.error .indexError) ∧ (⟨1, 2, 3⟩ : Vec).pyGet 2 = some (.ok 3) ∧
    (⟨1, 2, 3⟩ : Vec).pyGet (2 ^ 31) = some (.error .typeError) := ⟨rfl, rfl, rfl⟩
example : (1 : Frame).pyGet 3 3 = some (.error .indexError) ∧ (1 : Frame).pyGet 2 3 = some (.ok 0) := ⟨rfl, rfl⟩
example (v : Vec) : pyList v.pyGet 4 0 = some (.ok [v.x, v.y, v.z]) :=
  C79_list v.items (by norm_num [Vec.items]) v.pyGet (fun i => (C79_getitem i v 0 0 0 []).1) 4 (by norm_num [Vec.items])
example : pyGetColumn [] 0 = none := (C79_unchecked_violated Chain.empty [] 0 0 (by norm_num)).2 (Nat.le_refl _) |>.1
end KDL
