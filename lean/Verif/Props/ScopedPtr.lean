import Verif.Model.ScopedPtr
import Mathlib.Data.List.Nodup
import Mathlib.Tactic.Ring

/-! # C84: `scoped_ptr` owns its object -/

namespace KDL.Sp

/-- What a program may do, if the raw pointers in `own` are its own to delete or to hand over: construct variables that are not in
scope, use those in scope, and pass on what it owns. -/
def Allowed (s : St) (own : Finset ℕ) : Op → Prop
  | .new => True
  | .mk0 v => s.vars v = none
  | .mkp v p => s.vars v = none ∧ ∀ a, p = some a → a ∈ own
  | .destroy v => s.vars v ≠ none
  | .reset v p => s.vars v ≠ none ∧ ∀ a, p = some a → a ∈ own
  | .release v => s.vars v ≠ none
  | .swap v w => s.vars v ≠ none ∧ s.vars w ≠ none
  | .arrow v => ∃ a, s.vars v = some (some a)
  | .delete p => ∀ a, p = some a → a ∈ own

/-- What it owns afterwards: handing over a pointer gives up the object, `release` gains it. -/
def owned (s : St) (own : Finset ℕ) : Op → Finset ℕ
  | .new => insert s.next own
  | .mkp _ (some a) => own.erase a
  | .reset _ (some a) => own.erase a
  | .delete (some a) => own.erase a
  | .release v => match s.vars v with
    | some (some a) => insert a own
    | _ => own
  | _ => own

/-- A run of a program that keeps to these rules. -/
inductive Run : St → Finset ℕ → List Op → St → Finset ℕ → Prop
  | nil (s own) : Run s own [] s own
  | cons {s own o s1 os s2 own2} : Allowed s own o → s.step o = some s1 → Run s1 (owned s own o) os s2 own2 →
      Run s own (o :: os) s2 own2

/-- The program keeps to the rules at every statement that is reached. -/
def Keeps : St → Finset ℕ → List Op → Prop
  | _, _, [] => True
  | s, own, o :: os => Allowed s own o ∧ ∀ s1, s.step o = some s1 → Keeps s1 (owned s own o) os

/-- Every object has one owner, a `scoped_ptr` or the program; every other object was deleted, once. -/
structure Inv (s : St) (own : Finset ℕ) : Prop where
  alive : ∀ a, s.alive a = true ↔ a ∈ own ∨ ∃ v, s.vars v = some (some a)
  one : ∀ v w a, s.vars v = some (some a) → s.vars w = some (some a) → v = w
  apart : ∀ v a, s.vars v = some (some a) → a ∉ own
  log : ∀ a, a ∈ s.log.map Prod.fst ↔ a < s.next ∧ s.alive a = false
  fresh : ∀ a, s.alive a = true → a < s.next
  once : (s.log.map Prod.fst).Nodup

theorem Inv.empty : Inv .empty ∅ := by
  constructor <;> simp [St.empty]

theorem Inv.congr {s t : St} {own own' : Finset ℕ} (h : Inv s own) (h1 : t.alive = s.alive) (h2 : t.next = s.next)
    (h3 : t.vars = s.vars) (h4 : t.log.map Prod.fst = s.log.map Prod.fst) (h5 : own' = own) : Inv t own' := by
  subst h5
  exact ⟨by rw [h1, h3]; exact h.alive, by rw [h3]; exact h.one, by rw [h3]; exact h.apart, by rw [h1, h2, h4]; exact h.log,
    by rw [h1, h2]; exact h.fresh, by rw [h4]; exact h.once⟩

/-- `delete` of an object that the program owns. -/
theorem Inv.delete {s : St} {own : Finset ℕ} (h : Inv s own) {a : ℕ} (ha : a ∈ own) :
    ∃ s', s.delete (some a) = some s' ∧ Inv s' (own.erase a) ∧ s'.vars = s.vars ∧ s'.next = s.next ∧ s'.log = (a, s.vars) :: s.log ∧
      s'.alive = fun b => if b = a then false else s.alive b := by
  have hal : s.alive a = true := (h.alive a).mpr (.inl ha)
  refine ⟨_, if_pos hal, ⟨?_, h.one, ?_, ?_, ?_, ?_⟩, rfl, rfl, rfl, rfl⟩
  · intro b
    by_cases hb : b = a
    · subst hb
      simp only [if_true, Bool.false_eq_true, Finset.notMem_erase, false_or, false_iff]
      rintro ⟨v, hv⟩
      exact h.apart v b hv ha
    · simp only [if_neg hb, Finset.mem_erase, ne_eq, hb, not_false_eq_true, true_and]
      exact h.alive b
  · intro v b hv hb
    exact h.apart v b hv (Finset.mem_of_mem_erase hb)
  · intro b
    simp only [List.map_cons, List.mem_cons, h.log]
    by_cases hb : b = a
    · subst hb; simp [h.fresh b hal]
    · simp [hb]
  · intro b hb
    by_cases e : b = a
    · simp [e] at hb
    · simp only [if_neg e] at hb; exact h.fresh b hb
  · simp only [List.map_cons, List.nodup_cons]
    exact ⟨fun hm => by have := ((h.log a).mp hm).2; rw [hal] at this; simp at this, h.once⟩

/-- A variable without an object. -/
def Vacant (x : Option (Option ℕ)) : Prop := ∀ a, x ≠ some (some a)

theorem set_vars (s : St) (v : ℕ) (x : Option (Option ℕ)) (w : ℕ) : (s.set v x).vars w = if w = v then x else s.vars w := rfl

theorem Inv.vacate {s : St} {own : Finset ℕ} (h : Inv s own) {v : ℕ} {x : Option (Option ℕ)} (hv : Vacant (s.vars v)) (hx : Vacant x) :
    Inv (s.set v x) own := by
  have key : ∀ w a, (s.set v x).vars w = some (some a) ↔ s.vars w = some (some a) := by
    intro w a
    rw [set_vars]
    by_cases e : w = v
    · subst e; simp [hx a, hv a]
    · simp [e]
  exact ⟨fun a => by simp only [key]; exact h.alive a, fun w w' a => by simp only [key]; exact h.one w w' a,
    fun w a => by simp only [key]; exact h.apart w a, h.log, h.fresh, h.once⟩

theorem Inv.give {s : St} {own : Finset ℕ} (h : Inv s own) {v a : ℕ} (hv : Vacant (s.vars v)) (ha : a ∈ own) :
    Inv (s.set v (some (some a))) (own.erase a) := by
  have key : ∀ w b, (s.set v (some (some a))).vars w = some (some b) ↔ (w = v ∧ b = a) ∨ s.vars w = some (some b) := by
    intro w b
    rw [set_vars]
    by_cases e : w = v
    · subst e; simp [hv b, eq_comm]
    · simp [e]
  refine ⟨fun b => ?_, fun w w' b => ?_, fun w b => ?_, h.log, h.fresh, h.once⟩
  · simp only [key]
    show s.alive b = true ↔ _
    rw [h.alive, Finset.mem_erase]
    by_cases e : b = a
    · subst e; simp [ha]
    · simp [e]
  · simp only [key]
    rintro (⟨rfl, rfl⟩ | h1) (⟨rfl, e⟩ | h2)
    · rfl
    · exact absurd ha (h.apart _ _ h2)
    · rw [e] at h1; exact absurd ha (h.apart _ _ h1)
    · exact h.one _ _ _ h1 h2
  · simp only [key]
    rintro (⟨rfl, rfl⟩ | h1)
    · simp
    · intro hb; exact h.apart _ _ h1 (Finset.mem_of_mem_erase hb)

theorem Inv.take {s : St} {own : Finset ℕ} (h : Inv s own) {v a : ℕ} {x : Option (Option ℕ)} (hv : s.vars v = some (some a)) (hx : Vacant x) :
    Inv (s.set v x) (insert a own) := by
  have key : ∀ w b, (s.set v x).vars w = some (some b) ↔ w ≠ v ∧ s.vars w = some (some b) := by
    intro w b
    rw [set_vars]
    by_cases e : w = v
    · subst e; simp [hx b]
    · simp [e]
  refine ⟨fun b => ?_, fun w w' b => ?_, fun w b => ?_, h.log, h.fresh, h.once⟩
  · simp only [key]
    show s.alive b = true ↔ _
    rw [h.alive, Finset.mem_insert]
    constructor
    · rintro (h1 | ⟨w, h1⟩)
      · exact .inl (.inr h1)
      · by_cases e : w = v
        · subst e; rw [hv] at h1; simp only [Option.some.injEq] at h1; exact .inl (.inl h1.symm)
        · exact .inr ⟨w, e, h1⟩
    · rintro ((rfl | h1) | ⟨w, -, h1⟩)
      · exact .inr ⟨v, hv⟩
      · exact .inl h1
      · exact .inr ⟨w, h1⟩
  · simp only [key]
    rintro ⟨-, h1⟩ ⟨-, h2⟩
    exact h.one _ _ _ h1 h2
  · simp only [key]
    rintro ⟨e, h1⟩ hb
    rcases Finset.mem_insert.mp hb with rfl | hb
    · exact e (h.one _ _ _ h1 hv)
    · exact h.apart _ _ h1 hb

theorem set_set (s : St) (v : ℕ) (x y : Option (Option ℕ)) : (s.set v x).set v y = s.set v y := by
  unfold St.set
  congr 1
  funext w
  by_cases e : w = v <;> simp [e]

theorem vacant_none : Vacant none := by simp [Vacant]
theorem vacant_null : Vacant (some none) := by simp [Vacant]

/-- Setting a variable that holds nothing to a pointer that the program gives up. -/
theorem Inv.put {s : St} {own : Finset ℕ} (h : Inv s own) {v : ℕ} (hv : Vacant (s.vars v)) (p : Option ℕ)
    (hp : ∀ a, p = some a → a ∈ own) : Inv (s.set v (some p)) (match p with | some a => own.erase a | none => own) := by
  cases p with
  | none => exact h.vacate hv vacant_null
  | some a => exact h.give hv (hp a rfl)

theorem Inv.step {s : St} {own : Finset ℕ} (h : Inv s own) {o : Op} (ho : Allowed s own o) :
    ∃ s1, s.step o = some s1 ∧ Inv s1 (owned s own o) := by
  cases o with
  | new =>
    refine ⟨_, rfl, ?_⟩
    have hn : s.alive s.next = false := by
      by_contra e; exact lt_irrefl _ (h.fresh s.next (by simpa using e))
    refine ⟨fun a => ?_, h.one, fun v a hv => ?_, fun a => ?_, fun a => ?_, h.once⟩
    · show (if a = s.next then true else s.alive a) = true ↔ a ∈ insert s.next own ∨ _
      rw [Finset.mem_insert]
      by_cases e : a = s.next
      · simp [e]
      · simp only [e, if_false, false_or]; exact h.alive a
    · show a ∉ insert s.next own
      rw [Finset.mem_insert]
      rintro (e | e)
      · have := (h.alive a).mpr (.inr ⟨v, hv⟩)
        rw [e, hn] at this; simp at this
      · exact h.apart v a hv e
    · show a ∈ s.log.map Prod.fst ↔ a < s.next + 1 ∧ (if a = s.next then true else s.alive a) = false
      rw [h.log]
      by_cases e : a = s.next
      · simp [e]
      · simp only [e, if_false]
        have : a < s.next ↔ a < s.next + 1 := by omega
        rw [this]
    · show (if a = s.next then true else s.alive a) = true → a < s.next + 1
      by_cases e : a = s.next
      · simp [e]
      · simp only [e, if_false]; intro ha; have := h.fresh a ha; omega
  | mk0 v => exact ⟨_, rfl, h.vacate (by rw [show s.vars v = none from ho]; exact vacant_none) vacant_null⟩
  | mkp v p =>
    refine ⟨_, rfl, ?_⟩
    have := h.put (by rw [ho.1]; exact vacant_none) p ho.2
    cases p <;> exact this
  | destroy v =>
    obtain ⟨p, hp⟩ := Option.ne_none_iff_exists'.mp ho
    simp only [St.step, St.destroy, hp, Option.bind_eq_bind, Option.bind_some]
    cases p with
    | none => exact ⟨_, rfl, h.vacate (by rw [hp]; exact vacant_null) vacant_none⟩
    | some a =>
      have ht := h.take hp vacant_none
      obtain ⟨t, -, t2, t3, t4, t5, t6⟩ := ht.delete (Finset.mem_insert_self a own)
      rw [St.delete, if_pos ((h.alive a).mpr (.inr ⟨v, hp⟩)), Option.bind_some]
      refine ⟨_, rfl, t2.congr t6.symm t4.symm t3.symm (by rw [t5]; rfl) ?_⟩
      exact (Finset.erase_insert (h.apart v a hp)).symm
  | reset v p =>
    obtain ⟨hv, hp⟩ := ho
    obtain ⟨old, hold⟩ := Option.ne_none_iff_exists'.mp hv
    simp only [St.step, St.reset, hold, Option.bind_eq_bind, Option.bind_some]
    cases old with
    | none =>
      refine ⟨_, rfl, ?_⟩
      have := h.put (by rw [hold]; exact vacant_null) p hp
      cases p <;> exact this
    | some b =>
      have hb := h.apart v b hold
      have h1 := h.take hold vacant_null
      have h2 := h1.put (by rw [set_vars, if_pos rfl]; exact vacant_null) p fun a e => Finset.mem_insert_of_mem (hp a e)
      rw [set_set] at h2
      cases p with
      | none =>
        obtain ⟨t, t1, t2, -⟩ := h2.delete (a := b) (Finset.mem_insert_self b own)
        exact ⟨t, t1, t2.congr rfl rfl rfl rfl (Finset.erase_insert hb).symm⟩
      | some a =>
        have hab : b ≠ a := by rintro rfl; exact hb (hp b rfl)
        obtain ⟨t, t1, t2, -⟩ := h2.delete (a := b) (Finset.mem_erase.mpr ⟨hab, Finset.mem_insert_self b own⟩)
        refine ⟨t, t1, t2.congr rfl rfl rfl rfl ?_⟩
        show own.erase a = ((insert b own).erase a).erase b
        rw [Finset.erase_right_comm, Finset.erase_insert hb]
  | release v =>
    obtain ⟨old, hold⟩ := Option.ne_none_iff_exists'.mp ho
    simp only [St.step, St.release, hold, Option.bind_eq_bind, Option.bind_some, Option.map_some, owned]
    cases old with
    | none => exact ⟨_, rfl, h.vacate (by rw [hold]; exact vacant_null) vacant_null⟩
    | some b => exact ⟨_, rfl, h.take hold vacant_null⟩
  | swap v w =>
    obtain ⟨x, hx⟩ := Option.ne_none_iff_exists'.mp ho.1
    obtain ⟨y, hy⟩ := Option.ne_none_iff_exists'.mp ho.2
    simp only [St.step, St.swap, hx, hy, Option.bind_eq_bind, Option.bind_some]
    refine ⟨_, rfl, ?_⟩
    have key : ∀ u, ((s.set v (some y)).set w (some x)).vars u = s.vars (Equiv.swap v w u) := by
      intro u
      rw [set_vars, set_vars, Equiv.swap_apply_def]
      by_cases e1 : u = w
      · by_cases e2 : u = v
        · rw [if_pos e1, if_pos e2, ← e1, e2, hx]
        · rw [if_pos e1, if_neg e2, if_pos e1, hx]
      · by_cases e2 : u = v
        · rw [if_neg e1, if_pos e2, if_pos e2, hy]
        · rw [if_neg e1, if_neg e2, if_neg e2, if_neg e1]
    refine ⟨fun a => ?_, fun u u' a => ?_, fun u a => ?_, h.log, h.fresh, h.once⟩
    · simp only [key]
      refine (h.alive a).trans (or_congr Iff.rfl ⟨fun ⟨u, e⟩ => ⟨Equiv.swap v w u, by simpa using e⟩, fun ⟨u, e⟩ => ⟨_, e⟩⟩)
    · simp only [key]
      intro e1 e2
      exact (Equiv.swap v w).injective (h.one _ _ _ e1 e2)
    · simp only [key]
      exact h.apart _ _
  | arrow v =>
    obtain ⟨a, ha⟩ := ho
    refine ⟨s, ?_, h⟩
    simp only [St.step, St.arrow, ha, Option.bind_eq_bind, Option.bind_some]
    rw [if_pos ((h.alive a).mpr (.inr ⟨v, ha⟩))]
    rfl
  | delete p =>
    cases p with
    | none => exact ⟨s, rfl, h⟩
    | some a =>
      obtain ⟨t, t1, t2, -⟩ := h.delete (ho a rfl)
      exact ⟨t, t1, t2⟩

theorem Inv.run {s : St} {own : Finset ℕ} (h : Inv s own) (os : List Op) (hk : Keeps s own os) :
    ∃ s' own', Run s own os s' own' ∧ s.run os = some s' ∧ Inv s' own' := by
  induction os generalizing s own with
  | nil => exact ⟨s, own, .nil s own, rfl, h⟩
  | cons o os ih =>
    obtain ⟨s1, e, h1⟩ := h.step hk.1
    obtain ⟨s', own', r, e', h'⟩ := ih h1 (hk.2 s1 e)
    refine ⟨s', own', .cons hk.1 e r, ?_, h'⟩
    rw [St.run, e]
    exact e'

/-- **C84.**  A program that passes on only what it owns runs without undefined behaviour; at any time every object that was created
either lives and has exactly one owner, a `scoped_ptr` variable or the program itself, or was deleted exactly once. -/
theorem C84_owner (os : List Op) (hk : Keeps .empty ∅ os) :
    ∃ s own, Run .empty ∅ os s own ∧ St.empty.run os = some s ∧
      (∀ a, s.alive a = true ↔ (a ∈ own ∧ ∀ v, s.vars v ≠ some (some a)) ∨ (a ∉ own ∧ ∃! v, s.vars v = some (some a))) ∧
      ∀ a < s.next, (s.alive a = true ∧ (s.log.map Prod.fst).count a = 0) ∨
        (s.alive a = false ∧ (s.log.map Prod.fst).count a = 1) := by
  obtain ⟨s, own, r, e, h⟩ := Inv.empty.run os hk
  refine ⟨s, own, r, e, fun a => ?_, fun a ha => ?_⟩
  · rw [h.alive]
    constructor
    · rintro (h1 | ⟨v, h1⟩)
      · exact .inl ⟨h1, fun v hv => h.apart v a hv h1⟩
      · exact .inr ⟨h.apart v a h1, v, h1, fun w hw => h.one _ _ _ hw h1⟩
    · rintro (⟨h1, -⟩ | ⟨-, v, h1, -⟩)
      · exact .inl h1
      · exact .inr ⟨v, h1⟩
  · cases e : s.alive a with
    | true => exact .inl ⟨rfl, List.count_eq_zero.mpr fun hm => by have := ((h.log a).mp hm).2; rw [e] at this; simp at this⟩
    | false => exact .inr ⟨rfl, List.count_eq_one_of_mem h.once ((h.log a).mpr ⟨ha, e⟩)⟩

theorem Run.det {s s' : St} {own own' : Finset ℕ} {os : List Op} (h : Run s own os s' own') :
    ∀ {t tn}, Run s own os t tn → t = s' ∧ tn = own' := by
  induction h with
  | nil => intro t tn h; cases h; exact ⟨rfl, rfl⟩
  | cons _ e _ ih =>
    intro t tn h
    cases h with
    | cons _ e' r =>
      rw [e] at e'
      obtain rfl := Option.some.inj e'
      exact ih r

theorem Run.inv {s s' : St} {own own' : Finset ℕ} {os : List Op} (h : Run s own os s' own') (hi : Inv s own) : Inv s' own' := by
  induction h with
  | nil => exact hi
  | cons ho e _ ih =>
    obtain ⟨s1, e', h1⟩ := hi.step ho
    rw [e] at e'
    obtain rfl := Option.some.inj e'
    exact ih h1

/-- When all variables have left their scope and the program owns nothing, every object was deleted, exactly once. -/
theorem C84_no_leak {os : List Op} {s : St} (hr : Run .empty ∅ os s ∅) (hv : ∀ v, s.vars v = none) :
    ∀ a < s.next, s.alive a = false ∧ (s.log.map Prod.fst).count a = 1 := by
  intro a ha
  have h := hr.inv Inv.empty
  have e : s.alive a = false := by
    by_contra e
    rcases (h.alive a).mp (by simpa using e) with e | ⟨v, e⟩
    · simp at e
    · rw [hv] at e; simp at e
  exact ⟨e, List.count_eq_one_of_mem h.once ((h.log a).mpr ⟨ha, e⟩)⟩

/-! ### The members one by one -/

/-- The constructors store the pointer and touch no object. -/
theorem C84_construct (s : St) (v : ℕ) (p : Option ℕ) :
    (s.mk0 v).get v = some none ∧ (s.mkp v p).get v = some p ∧ (s.mk0 v).alive = s.alive ∧ (s.mkp v p).alive = s.alive ∧
    (s.mk0 v).log = s.log ∧ (s.mkp v p).log = s.log ∧
    ∀ w ≠ v, (s.mk0 v).get w = s.get w ∧ (s.mkp v p).get w = s.get w := by
  refine ⟨by simp [St.get, St.mk0, St.set], by simp [St.get, St.mkp, St.set], rfl, rfl, rfl, rfl, fun w hw => ?_⟩
  simp [St.get, St.mk0, St.mkp, St.set, hw]

/-- `release` hands out the pointer and deletes nothing. -/
theorem C84_release (s : St) (v : ℕ) (p : Option ℕ) (h : s.get v = some p) :
    ∃ s', s.release v = some (p, s') ∧ s'.get v = some none ∧ s'.alive = s.alive ∧ s'.log = s.log ∧
      ∀ w ≠ v, s'.get w = s.get w := by
  unfold St.get at h
  refine ⟨s.set v (some none), by unfold St.release; rw [h]; rfl, by simp [St.get, St.set], rfl, rfl, fun w hw => by simp [St.get, St.set, hw]⟩

/-- `reset` replaces the pointer and deletes the old object, whose destructor finds the new pointer in the variable. -/
theorem C84_reset (s : St) (v a : ℕ) (p : Option ℕ) (h : s.get v = some (some a)) (ha : s.alive a = true) :
    ∃ s', s.reset v p = some s' ∧ s'.get v = some p ∧ (∀ b, s'.alive b = true ↔ s.alive b = true ∧ b ≠ a) ∧
      (∀ w ≠ v, s'.get w = s.get w) ∧ ∃ seen, s'.log = (a, seen) :: s.log ∧ seen v = some p := by
  unfold St.get at h
  refine ⟨_, by unfold St.reset; rw [h]; exact if_pos ha, by simp [St.get, St.set], fun b => ?_, fun w hw => by simp [St.get, St.set, hw],
    _, rfl, by simp [St.set]⟩
  by_cases e : b = a <;> simp [e, St.set]

/-- On an empty variable it deletes nothing. -/
theorem C84_reset_null (s : St) (v : ℕ) (p : Option ℕ) (h : s.get v = some none) :
    ∃ s', s.reset v p = some s' ∧ s'.get v = some p ∧ s'.alive = s.alive ∧ s'.log = s.log ∧ ∀ w ≠ v, s'.get w = s.get w := by
  unfold St.get at h
  exact ⟨s.set v (some p), by unfold St.reset; rw [h]; rfl, by simp [St.get, St.set], rfl, rfl, fun w hw => by simp [St.get, St.set, hw]⟩

/-- The destructor deletes the object held; the destructor of the object still finds its address in the variable. -/
theorem C84_destroy (s : St) (v a : ℕ) (h : s.get v = some (some a)) (ha : s.alive a = true) :
    ∃ s', s.destroy v = some s' ∧ s'.get v = none ∧ (∀ b, s'.alive b = true ↔ s.alive b = true ∧ b ≠ a) ∧
      (∀ w ≠ v, s'.get w = s.get w) ∧ ∃ seen, s'.log = (a, seen) :: s.log ∧ seen v = some (some a) := by
  unfold St.get at h
  refine ⟨_, by unfold St.destroy; rw [h]; simp only [Option.bind_eq_bind, Option.bind_some]; rw [St.delete, if_pos ha]; rfl,
    by simp [St.get, St.set], fun b => ?_, fun w hw => by simp [St.get, St.set, hw], _, rfl, h⟩
  by_cases e : b = a <;> simp [e, St.set]

/-- `swap` exchanges the pointers, also of a variable with itself. -/
theorem C84_swap (s : St) (v w : ℕ) (p q : Option ℕ) (hv : s.get v = some p) (hw : s.get w = some q) :
    ∃ s', s.swap v w = some s' ∧ s'.get v = some q ∧ s'.get w = some p ∧ s'.alive = s.alive ∧ s'.log = s.log ∧
      ∀ u, u ≠ v → u ≠ w → s'.get u = s.get u := by
  unfold St.get at hv hw
  refine ⟨(s.set v (some q)).set w (some p), by unfold St.swap; rw [hv, hw]; rfl, ?_, by simp [St.get, St.set], rfl, rfl,
    fun u h1 h2 => by simp [St.get, St.set, h1, h2]⟩
  simp only [St.get, St.set]
  by_cases e : v = w
  · subst e; rw [hv] at hw; simpa using hw
  · simp [e]

/-- The rule that only owned pointers are passed is needed: after `reset` with the pointer already held the object is gone, the use of
the variable is undefined, and so is the end of its scope. -/
theorem C84_self_reset (s : St) (v a : ℕ) (h : s.get v = some (some a)) (ha : s.alive a = true) :
    ∃ s', s.reset v (some a) = some s' ∧ s'.get v = some (some a) ∧ s'.alive a = false ∧ s'.arrow v = none ∧ s'.destroy v = none := by
  obtain ⟨s', e, h1, h2, -⟩ := C84_reset s v a (some a) h ha
  have hd : s'.alive a = false := by
    by_contra e; exact ((h2 a).mp (by simpa using e)).2 rfl
  refine ⟨s', e, h1, hd, ?_, ?_⟩
  · unfold St.get at h1
    unfold St.arrow
    rw [h1]; simp [hd]
  · unfold St.get at h1
    unfold St.destroy
    rw [h1]; simp [St.delete, hd]

/-- Two variables constructed with the same pointer delete it twice. -/
theorem C84_two_owners (s : St) (v w a : ℕ) (hvw : v ≠ w) :
    (((s.mkp v (some a)).mkp w (some a)).destroy v).bind (fun s => s.destroy w) = none := by
  unfold St.destroy St.mkp
  have e1 : ((s.set v (some (some a))).set w (some (some a))).vars v = some (some a) := by simp [St.set, hvw]
  rw [e1]
  simp only [Option.bind_eq_bind, Option.bind_some, St.delete]
  split_ifs with h
  · simp [St.set, hvw.symm]
  · rfl

/-- The pattern of `Path::Read`, path.cpp:139–150: the new object is held while it is filled, then released to the caller, who deletes
it; and the same with an exception before the release. -/
example : Keeps .empty ∅ [.new, .mkp 0 (some 0), .arrow 0, .release 0, .destroy 0, .delete (some 0)] ∧
    Keeps .empty ∅ [.new, .mkp 0 (some 0), .arrow 0, .destroy 0] := by
  simp [Keeps, Allowed, owned, St.step, St.empty, St.new, St.mkp, St.set, St.arrow, St.release, St.destroy, St.delete]

end KDL.Sp
