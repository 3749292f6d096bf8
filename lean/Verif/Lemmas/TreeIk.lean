import Verif.Model.TreeIk
import Mathlib.Data.String.Basic
import Mathlib.Tactic.Linarith
import Mathlib.Tactic.Ring
import Mathlib.Tactic.FieldSimp
import Mathlib.Tactic.NormNum

/-! Helper lemmas for the tree inverse kinematics solvers. -/

noncomputable section
namespace KDL

namespace SMap
variable {α : Type}

theorem find_nil (k : String) : find ([] : SMap α) k = none := rfl
theorem find_cons (e : String × α) (m : SMap α) (k : String) :
    find (e :: m) k = if e.1 = k then some e.2 else find m k := by
  unfold find
  by_cases h : e.1 = k <;> simp [h]

theorem find_isSome {m : SMap α} {k : String} : (find m k).isSome ↔ k ∈ m.map Prod.fst := by
  induction m with
  | nil => simp [find_nil]
  | cons e m ih =>
    rw [find_cons]
    by_cases h : e.1 = k
    · simp [h]
    · rw [if_neg h, ih]; simp [Ne.symm h]
theorem find_eq_none {m : SMap α} {k : String} : find m k = none ↔ k ∉ m.map Prod.fst := by
  rw [← find_isSome]; simp

theorem find_set (m : SMap α) (k k' : String) (v : α) :
    find (set m k v) k' = if k' = k then (find m k).map fun _ => v else find m k' := by
  induction m with
  | nil => simp [set, find_nil]
  | cons e m ih =>
    have e1 : set (e :: m) k v = (if e.1 = k then (k, v) else e) :: set m k v := rfl
    rw [e1, find_cons, find_cons, find_cons, ih]
    by_cases h : e.1 = k
    · subst h
      by_cases h' : k' = e.1
      · simp [h']
      · simp [h', Ne.symm h']
    · by_cases h' : k' = k
      · subst h'; simp [h]
      · simp [h, h']
theorem keys_set (m : SMap α) (k : String) (v : α) : (set m k v).map Prod.fst = m.map Prod.fst := by
  unfold set
  rw [List.map_map]
  refine List.map_congr_left fun e _ => ?_
  by_cases h : e.1 = k <;> simp [h]

/-- Keys are in strictly increasing order. -/
def Sorted (m : SMap α) : Prop := (m.map Prod.fst).Pairwise (· < ·)

theorem Sorted.nodup {m : SMap α} (h : Sorted m) : (m.map Prod.fst).Nodup := List.Pairwise.imp (fun h => h.ne) h

theorem find_iff_mem {m : SMap α} (h : (m.map Prod.fst).Nodup) {k : String} {x : α} : find m k = some x ↔ (k, x) ∈ m := by
  induction m with
  | nil => simp [find_nil]
  | cons e m ih =>
    rw [List.map_cons, List.nodup_cons] at h
    rw [find_cons]
    by_cases he : e.1 = k
    · rw [if_pos he]
      constructor
      · intro hx
        have : e = (k, x) := Prod.ext he (Option.some.inj hx)
        simp [this]
      · intro hx
        rcases List.mem_cons.mp hx with h1 | h1
        · rw [← h1]
        · exact absurd (List.mem_map_of_mem (f := Prod.fst) h1) (he ▸ h.1)
    · rw [if_neg he, ih h.2, List.mem_cons]
      constructor
      · exact .inr
      · rintro (h1 | h1)
        · exact absurd (by rw [← h1]) he
        · exact h1

theorem keys_insert (m : SMap α) (k : String) (v : α) (x : String) :
    x ∈ (insert m k v).map Prod.fst ↔ x = k ∨ x ∈ m.map Prod.fst := by
  induction m with
  | nil => simp [insert]
  | cons e m ih =>
    rw [insert]
    split_ifs with h1 h2
    · simp
    · subst h2; simp
    · rw [List.map_cons, List.mem_cons, ih, List.map_cons, List.mem_cons]; tauto

theorem sorted_insert {m : SMap α} (h : Sorted m) (k : String) (v : α) : Sorted (insert m k v) := by
  induction m with
  | nil => simp [insert, Sorted]
  | cons e m ih =>
    unfold Sorted at h
    rw [List.map_cons, List.pairwise_cons] at h
    rw [insert]
    split_ifs with h1 h2
    · unfold Sorted
      rw [List.map_cons, List.map_cons, List.pairwise_cons, List.pairwise_cons]
      refine ⟨fun x hx => ?_, h⟩
      rcases List.mem_cons.mp hx with rfl | hx
      · exact h1
      · exact h1.trans (h.1 x hx)
    · unfold Sorted; rw [List.map_cons, List.pairwise_cons]; exact h
    · unfold Sorted
      rw [List.map_cons, List.pairwise_cons]
      refine ⟨fun x hx => ?_, ih h.2⟩
      rcases (keys_insert m k v x).mp hx with rfl | hx
      · exact lt_of_le_of_ne (not_lt.mp h1) (Ne.symm h2)
      · exact h.1 x hx

theorem mem_insert_of_mem {m : SMap α} {e : String × α} (h : e ∈ m) (k : String) (v : α) : e ∈ insert m k v := by
  induction m with
  | nil => simp at h
  | cons a m ih =>
    rw [insert]
    split_ifs
    · exact List.mem_cons_of_mem _ h
    · exact h
    · rcases List.mem_cons.mp h with rfl | h
      · simp
      · exact List.mem_cons_of_mem _ (ih h)
theorem mem_insert {m : SMap α} {e : String × α} {k : String} {v : α} (h : e ∈ insert m k v) : e = (k, v) ∨ e ∈ m := by
  induction m with
  | nil => simpa [insert] using h
  | cons a m ih =>
    rw [insert] at h
    split_ifs at h
    · simpa using h
    · exact .inr h
    · rcases List.mem_cons.mp h with rfl | h
      · simp
      · rcases ih h with h | h
        · exact .inl h
        · exact .inr (List.mem_cons_of_mem _ h)

theorem foldl_insert (ks : List String) (v : String → α) (m : SMap α) (h : Sorted m) (hv : ∀ e ∈ m, e.2 = v e.1) :
    Sorted (ks.foldl (fun m k => insert m k (v k)) m) ∧
    (∀ e ∈ ks.foldl (fun m k => insert m k (v k)) m, e.2 = v e.1) ∧
    ∀ x, x ∈ (ks.foldl (fun m k => insert m k (v k)) m).map Prod.fst ↔ x ∈ ks ∨ x ∈ m.map Prod.fst := by
  induction ks generalizing m with
  | nil => exact ⟨h, hv, by simp⟩
  | cons k ks ih =>
    obtain ⟨h1, h2, h3⟩ := ih (insert m k (v k)) (sorted_insert h _ _) (by
      intro e he
      rcases mem_insert he with rfl | he
      · rfl
      · exact hv e he)
    refine ⟨h1, h2, fun x => ?_⟩
    rw [List.foldl_cons, h3, keys_insert, List.mem_cons]; tauto

theorem build_spec (ks : List String) (v : String → α) : Sorted (build ks v) ∧ (∀ e ∈ build ks v, e.2 = v e.1) ∧
    ∀ x, x ∈ (build ks v).map Prod.fst ↔ x ∈ ks := by
  obtain ⟨h1, h2, h3⟩ := foldl_insert ks v [] (by simp [Sorted]) (by simp)
  exact ⟨h1, h2, fun x => by rw [build, h3]; simp⟩

theorem find_build (ks : List String) (v : String → α) (k : String) :
    find (build ks v) k = if k ∈ ks then some (v k) else none := by
  obtain ⟨h1, h2, h3⟩ := build_spec ks v
  split_ifs with h
  · obtain ⟨x, hx⟩ := Option.isSome_iff_exists.mp (find_isSome.mpr ((h3 k).mpr h))
    rw [hx]
    exact congrArg some (h2 _ ((find_iff_mem h1.nodup).mp hx))
  · rw [find_eq_none, h3]; exact h

end SMap

/-! ### Clamping -/

open Classical in
/-- One joint value. -/
def clamp1 (x lo hi : ℝ) : ℝ := if x < lo then lo else if x > hi then hi else x

theorem clamp1_mem {x lo hi : ℝ} (h : lo ≤ hi) : lo ≤ clamp1 x lo hi ∧ clamp1 x lo hi ≤ hi := by
  unfold clamp1; split_ifs with h1 h2
  · exact ⟨le_rfl, h⟩
  · exact ⟨h, le_rfl⟩
  · exact ⟨not_lt.mp h1, not_lt.mp h2⟩
theorem clamp1_of_mem {x lo hi : ℝ} (h1 : lo ≤ x) (h2 : x ≤ hi) : clamp1 x lo hi = x := by
  unfold clamp1; rw [if_neg (not_lt.mpr h1), if_neg (not_lt.mpr h2)]
theorem clamp1_near {x y lo hi : ℝ} (h1 : lo ≤ x) (h2 : x ≤ hi) : |clamp1 y lo hi - x| ≤ |y - x| := by
  unfold clamp1; split_ifs with h3 h4
  · rw [abs_of_nonpos (by linarith), abs_of_nonpos (by linarith)]; linarith
  · rw [abs_of_nonneg (by linarith), abs_of_nonneg (by linarith)]; linarith
  · rfl

theorem clampAll_eq : ∀ (q lo hi : List ℝ), q.length = lo.length → q.length = hi.length →
    ∃ r, clampAll q lo hi = some r ∧ r.length = q.length ∧
      ∀ j, j < q.length → r.getD j 0 = clamp1 (q.getD j 0) (lo.getD j 0) (hi.getD j 0) := by
  intro q
  induction q with
  | nil =>
    intro lo hi h1 _
    obtain rfl : lo = [] := List.length_eq_zero_iff.mp h1.symm
    exact ⟨[], by simp [clampAll], rfl, by simp⟩
  | cons x q ih =>
    intro lo hi h1 h2
    cases lo with
    | nil => simp at h1
    | cons l lo =>
      cases hi with
      | nil => simp at h2
      | cons h hi =>
        obtain ⟨r, e, hl, hr⟩ := ih lo hi (by simpa using h1) (by simpa using h2)
        refine ⟨clamp1 x l h :: r, ?_, by simp [hl], ?_⟩
        · rw [clampAll]
          simp only [List.head?_cons, Option.map_some, List.tail_cons, Option.bind_eq_bind, e, Option.bind_some]
          unfold clamp1
          by_cases hx : x < l
          · rw [if_pos hx, if_pos hx]
          · rw [if_neg hx, if_neg hx]
        · intro j hj
          cases j with
          | zero => simp
          | succ j => simpa using hr j (by simpa using hj)

/-! ### The loop over the endpoints -/

theorem aim_eq (fk : TreePosFn) (lim : Twist → Twist) (i : ℕ) (q : List ℝ) : ∀ (p : SMap Frame) (fr : SMap Frame)
    (tw : SMap Twist), (p.map Prod.fst).Nodup → (∀ n ∈ p.map Prod.fst, n ∈ fr.map Prod.fst ∧ n ∈ tw.map Prod.fst) →
    ∀ fr' tw', aim fk lim i q p fr tw = some (fr', tw') →
    fr'.map Prod.fst = fr.map Prod.fst ∧ tw'.map Prod.fst = tw.map Prod.fst ∧
    (∀ n, n ∉ p.map Prod.fst → fr'.find n = fr.find n ∧ tw'.find n = tw.find n) ∧
    ∀ n goal, (n, goal) ∈ p → ∃ f0 c f, fr.find n = some f0 ∧ fk i q n f0 = some (c, f) ∧ fr'.find n = some f ∧
      tw'.find n = some (lim (Frame.diff f goal 1)) := by
  intro p
  induction p with
  | nil =>
    intro fr tw _ _ fr' tw' h
    simp only [aim, Option.some.injEq, Prod.mk.injEq] at h
    obtain ⟨rfl, rfl⟩ := h
    simp
  | cons e p ih =>
    obtain ⟨n, goal⟩ := e
    intro fr tw hnd hin fr' tw' h
    rw [List.map_cons, List.nodup_cons] at hnd
    obtain ⟨hn1, hn2⟩ := hin n (by simp)
    obtain ⟨f0, hf0⟩ := Option.isSome_iff_exists.mp (SMap.find_isSome.mpr hn1)
    obtain ⟨t0, ht0⟩ := Option.isSome_iff_exists.mp (SMap.find_isSome.mpr hn2)
    rw [aim, hf0, ht0] at h
    simp only [Option.bind_eq_bind, Option.bind_some] at h
    obtain ⟨⟨c, f⟩, hfk, h⟩ := Option.bind_eq_some_iff.mp h
    dsimp only at h
    obtain ⟨k1, k2, k3, k4⟩ := ih _ _ hnd.2 (by
      intro m hm
      rw [SMap.keys_set, SMap.keys_set]
      exact hin m (by simp only [List.map_cons, List.mem_cons]; exact .inr hm)) fr' tw' h
    rw [SMap.keys_set] at k1 k2
    refine ⟨k1, k2, ?_, ?_⟩
    · intro m hm
      rw [List.map_cons, List.mem_cons, not_or] at hm
      obtain ⟨a, b⟩ := k3 m hm.2
      rw [a, b, SMap.find_set, SMap.find_set, if_neg hm.1, if_neg hm.1]
      exact ⟨rfl, rfl⟩
    · intro m g hm
      rcases List.mem_cons.mp hm with h1 | h1
      · obtain ⟨rfl, rfl⟩ := Prod.mk.inj h1
        obtain ⟨a, b⟩ := k3 m hnd.1
        refine ⟨f0, c, f, hf0, hfk, ?_, ?_⟩
        · rw [a, SMap.find_set, if_pos rfl, hf0]; rfl
        · rw [b, SMap.find_set, if_pos rfl, ht0]; rfl
      · have hmn : m ≠ n := by
          rintro rfl
          exact hnd.1 (List.mem_map_of_mem (f := Prod.fst) (a := (_, g)) h1)
        obtain ⟨f0', c', f', a1, a2, a3, a4⟩ := k4 m g h1
        rw [SMap.find_set, if_neg hmn] at a1
        exact ⟨f0', c', f', a1, a2, a3, a4⟩

theorem aim_some (fk : TreePosFn) (lim : Twist → Twist) (i : ℕ) (q : List ℝ) (hfk : ∀ n f, (fk i q n f).isSome) :
    ∀ (p : SMap Frame) (fr : SMap Frame) (tw : SMap Twist),
    (∀ n ∈ p.map Prod.fst, n ∈ fr.map Prod.fst ∧ n ∈ tw.map Prod.fst) → (aim fk lim i q p fr tw).isSome := by
  intro p
  induction p with
  | nil => intros; rfl
  | cons e p ih =>
    obtain ⟨n, goal⟩ := e
    intro fr tw hin
    obtain ⟨hn1, hn2⟩ := hin n (by simp)
    obtain ⟨f0, hf0⟩ := Option.isSome_iff_exists.mp (SMap.find_isSome.mpr hn1)
    obtain ⟨t0, ht0⟩ := Option.isSome_iff_exists.mp (SMap.find_isSome.mpr hn2)
    obtain ⟨⟨c, f⟩, hf⟩ := Option.isSome_iff_exists.mp (hfk n f0)
    rw [aim, hf0, ht0]
    simp only [Option.bind_eq_bind, Option.bind_some, hf]
    refine ih _ _ fun m hm => ?_
    rw [SMap.keys_set, SMap.keys_set]
    exact hin m (by simp only [List.map_cons, List.mem_cons]; exact .inr hm)

theorem aim_some' (fk : TreePosFn) (lim : Twist → Twist) (i : ℕ) (q : List ℝ) :
    ∀ (p : SMap Frame) (_ : ∀ n ∈ p.map Prod.fst, ∀ f, (fk i q n f).isSome) (fr : SMap Frame) (tw : SMap Twist),
    (∀ n ∈ p.map Prod.fst, n ∈ fr.map Prod.fst ∧ n ∈ tw.map Prod.fst) → (aim fk lim i q p fr tw).isSome := by
  intro p
  induction p with
  | nil => intros; rfl
  | cons e p ih =>
    obtain ⟨n, goal⟩ := e
    intro hfk fr tw hin
    obtain ⟨hn1, hn2⟩ := hin n (by simp)
    obtain ⟨f0, hf0⟩ := Option.isSome_iff_exists.mp (SMap.find_isSome.mpr hn1)
    obtain ⟨t0, ht0⟩ := Option.isSome_iff_exists.mp (SMap.find_isSome.mpr hn2)
    obtain ⟨⟨c, f⟩, hf⟩ := Option.isSome_iff_exists.mp (hfk n (by simp) f0)
    rw [aim, hf0, ht0]
    simp only [Option.bind_eq_bind, Option.bind_some, hf]
    refine ih (fun m hm => hfk m (by simp only [List.map_cons, List.mem_cons]; exact .inr hm)) _ _ fun m hm => ?_
    rw [SMap.keys_set, SMap.keys_set]
    exact hin m (by simp only [List.map_cons, List.mem_cons]; exact .inr hm)

/-! ### Overshoot -/

theorem posDiv_pos {x m : ℝ} (hx : 0 < x) (hm : 0 ≤ m) : 0 < posDiv x m := by
  unfold posDiv
  split_ifs with h
  · exact WithTop.top_pos
  · have : 0 < x / m := div_pos hx (lt_of_le_of_ne hm (Ne.symm h))
    exact_mod_cast this

theorem overshoot_eq : ∀ (xs ms : List ℝ), xs.length = ms.length → (∀ m ∈ ms, 0 ≤ m) → ∀ (e : Bool) (r : WithTop ℝ), 0 ≤ r →
    (e = false → r = 0) → ∃ e' r', overshoot xs ms e r = some (e', r') ∧ r ≤ r' ∧ (e = true → e' = true) ∧
      (∀ p ∈ xs.zip ms, p.2 < |p.1| → e' = true ∧ posDiv (|p.1| - p.2) p.2 ≤ r') ∧
      (e' = true → (e = true ∧ r' = r) ∨ ∃ p ∈ xs.zip ms, p.2 < |p.1| ∧ r' = posDiv (|p.1| - p.2) p.2) := by
  intro xs
  induction xs with
  | nil =>
    intro ms _ _ e r _ _
    exact ⟨e, r, by simp [overshoot], le_rfl, id, by simp, fun h => .inl ⟨h, rfl⟩⟩
  | cons x xs ih =>
    intro ms hl hm e r hr he
    cases ms with
    | nil => simp at hl
    | cons m ms =>
      have hm0 : 0 ≤ m := hm m (by simp)
      have hl' : xs.length = ms.length := by simpa using hl
      have hm' : ∀ m ∈ ms, 0 ≤ m := fun y hy => hm y (by simp [hy])
      have big : ∀ o : WithTop ℝ, m < |x| → o = posDiv (|x| - m) m →
          ∃ e' r', overshoot xs ms true (if o > r then o else r) = some (e', r') ∧ r ≤ r' ∧ (e = true → e' = true) ∧
          (∀ p ∈ (x :: xs).zip (m :: ms), p.2 < |p.1| → e' = true ∧ posDiv (|p.1| - p.2) p.2 ≤ r') ∧
          (e' = true → (e = true ∧ r' = r) ∨
            ∃ p ∈ (x :: xs).zip (m :: ms), p.2 < |p.1| ∧ r' = posDiv (|p.1| - p.2) p.2) := by
        rintro o hx rfl
        have hpos := posDiv_pos (m := m) (sub_pos.mpr hx) hm0
        have hle : r ≤ (if posDiv (|x| - m) m > r then posDiv (|x| - m) m else r) := by
          split_ifs with h
          · exact le_of_lt h
          · exact le_rfl
        have hge : posDiv (|x| - m) m ≤ (if posDiv (|x| - m) m > r then posDiv (|x| - m) m else r) := by
          split_ifs with h
          · exact le_rfl
          · exact not_lt.mp h
        obtain ⟨e', r', k1, k2, k3, k4, k5⟩ := ih ms hl' hm' true _ (hr.trans hle) (by simp)
        refine ⟨e', r', k1, hle.trans k2, fun _ => k3 rfl, ?_, fun _ => ?_⟩
        · intro p hp hlt
          rw [List.zip_cons_cons, List.mem_cons] at hp
          rcases hp with rfl | hp
          · exact ⟨k3 rfl, hge.trans k2⟩
          · exact k4 p hp hlt
        · rcases k5 (k3 rfl) with ⟨-, h⟩ | ⟨p, hp, h1, h2⟩
          · by_cases ho : posDiv (|x| - m) m > r
            · rw [if_pos ho] at h
              exact .inr ⟨(x, m), by simp, hx, h⟩
            · rw [if_neg ho] at h
              cases e with
              | true => exact .inl ⟨rfl, h⟩
              | false =>
                rw [he rfl] at ho
                exact absurd hpos ho
          · exact .inr ⟨p, by rw [List.zip_cons_cons]; exact List.mem_cons_of_mem _ hp, h1, h2⟩
      rw [overshoot]
      by_cases h1 : x > m
      · rw [if_pos h1]
        have : |x| = x := abs_of_pos (lt_of_le_of_lt hm0 h1)
        exact big _ (by rw [this]; exact h1) (by rw [this])
      rw [if_neg h1]
      by_cases h2 : x < -m
      · rw [if_pos h2]
        have : |x| = -x := abs_of_neg (lt_of_lt_of_le h2 (by linarith))
        exact big _ (by rw [this]; linarith) (by rw [this])
      rw [if_neg h2]
      obtain ⟨e', r', k1, k2, k3, k4, k5⟩ := ih ms hl' hm' e r hr he
      refine ⟨e', r', k1, k2, k3, ?_, fun h => ?_⟩
      · intro p hp hlt
        rw [List.zip_cons_cons, List.mem_cons] at hp
        rcases hp with rfl | hp
        · exfalso
          dsimp only at hlt
          rcases lt_abs.mp hlt with h | h
          · exact h1 h
          · exact h2 (by linarith)
        · exact k4 p hp hlt
      · rcases k5 h with h | ⟨p, hp, h3⟩
        · exact .inl h
        · exact .inr ⟨p, by rw [List.zip_cons_cons]; exact List.mem_cons_of_mem _ hp, h3⟩

theorem velScale_nonneg {r : WithTop ℝ} (h : 0 ≤ r) : 0 ≤ velScale r ∧ velScale r ≤ 1 := by
  cases r with
  | top => exact ⟨le_rfl, zero_le_one⟩
  | coe r =>
    have h : 0 ≤ r := by exact_mod_cast h
    show 0 ≤ 1 / (1 + r) ∧ 1 / (1 + r) ≤ 1
    refine ⟨by positivity, ?_⟩
    rw [div_le_one (by linarith)]; linarith

theorem velScale_bound {x m : ℝ} {r : WithTop ℝ} (hm : 0 ≤ m) (h : m < |x|) (hr : posDiv (|x| - m) m ≤ r) :
    |x * velScale r| ≤ m := by
  cases r with
  | top => show |x * 0| ≤ m; simpa using hm
  | coe r =>
    unfold posDiv at hr
    split_ifs at hr with h0
    · exact absurd hr (by simp)
    have hm' : 0 < m := lt_of_le_of_ne hm (Ne.symm h0)
    have hr : (|x| - m) / m ≤ r := by exact_mod_cast hr
    rw [div_le_iff₀ hm'] at hr
    have hr0 : 0 < 1 + r := by
      by_contra hn
      have : r * m ≤ -1 * m := mul_le_mul_of_nonneg_right (by linarith) hm
      linarith [abs_nonneg x]
    show |x * (1 / (1 + r))| ≤ m
    rw [abs_mul, abs_of_pos (show 0 < 1 / (1 + r) by positivity), mul_one_div, div_le_iff₀ hr0]
    linarith

theorem velScale_max {x m s : ℝ} (hm : 0 ≤ m) (h : m < |x|) (hs : 0 ≤ s) (hb : |x * s| ≤ m) :
    s ≤ velScale (posDiv (|x| - m) m) := by
  rw [abs_mul, abs_of_nonneg hs] at hb
  have hx : 0 < |x| := lt_of_le_of_lt hm h
  unfold posDiv
  split_ifs with h0
  · show s ≤ 0
    rw [h0] at hb
    by_contra hn
    have := mul_pos hx (not_le.mp hn)
    linarith
  · show s ≤ 1 / (1 + (|x| - m) / m)
    have hm' : 0 < m := lt_of_le_of_ne hm (Ne.symm h0)
    have : 1 + (|x| - m) / m = |x| / m := by field_simp; ring
    rw [this, one_div_div, le_div_iff₀ hx]
    linarith

end KDL
