import Verif.Model.PyView
import Verif.Lemmas.Frames
import Verif.Props.PyItems
import Verif.Props.VectorNorm
import Verif.Props.FrameGroup
import Mathlib.Data.List.Basic
import Mathlib.Tactic.Common

/-! # C93: what Python variables refer to -/

noncomputable section
namespace KDL.PyView
open PyVal

/-- Class of a value; `none` for floats. -/
def cls : PyVal → Option PyClass
  | num _ => none
  | vec _ => some .vec
  | wrench _ => some .wrench
  | twist _ => some .twist
  | rot _ => some .rot
  | frame _ => some .frame
  | vecVel _ => some .vecVel
  | twistVel _ => some .twistVel
  | rotVel _ => some .rotVel
  | frameVel _ => some .frameVel

/-- No path is a beginning of the other. -/
def Apart (p q : List Fld) : Prop := ¬ p <+: q ∧ ¬ q <+: p

/-! ## Attributes -/

theorem get_set {o o' x : PyVal} {f : Fld} (h : setAttr o f x = some o') : getAttr o' f = some x := by
  cases o <;> cases f <;> cases x <;> simp only [setAttr, reduceCtorEq, Option.some.injEq] at h <;> subst h <;> rfl

theorem get_set_ne {o o' x : PyVal} {f g : Fld} (h : setAttr o f x = some o') (hg : g ≠ f) : getAttr o' g = getAttr o g := by
  cases o <;> cases f <;> cases x <;> simp only [setAttr, reduceCtorEq, Option.some.injEq] at h <;> subst h <;> cases g <;>
    first | rfl | exact absurd rfl hg

theorem set_cls {o o' x : PyVal} {f : Fld} (h : setAttr o f x = some o') : cls o' = cls o := by
  cases o <;> cases f <;> cases x <;> simp only [setAttr, reduceCtorEq, Option.some.injEq] at h <;> subst h <;> rfl

theorem set_some {o x y : PyVal} {f : Fld} (h : getAttr o f = some y) (hc : cls x = cls y) : ∃ o', setAttr o f x = some o' := by
  cases o <;> cases f <;> simp only [getAttr, reduceCtorEq, Option.some.injEq] at h <;> subst h <;> cases x <;>
    simp only [cls, reduceCtorEq, Option.some.injEq] at hc <;> exact ⟨_, rfl⟩

theorem get_of_set {o o' x : PyVal} {f : Fld} (h : setAttr o f x = some o') : ∃ y, getAttr o f = some y ∧ cls x = cls y := by
  cases o <;> cases f <;> cases x <;> simp only [setAttr, reduceCtorEq, Option.some.injEq] at h <;> exact ⟨_, rfl, rfl⟩

theorem get_cls {o o' : PyVal} (h : cls o = cls o') (f : Fld) : (getAttr o f).map cls = (getAttr o' f).map cls := by
  cases o <;> cases o' <;> simp only [cls, reduceCtorEq, Option.some.injEq] at h <;> cases f <;> rfl

theorem getP_append (o : PyVal) (p q : List Fld) : getP o (p ++ q) = (getP o p).bind fun y => getP y q := by
  induction p generalizing o with
  | nil => rfl
  | cons f p ih =>
    simp only [List.cons_append, getP]
    cases h : getAttr o f with
    | none => rfl
    | some y => exact ih y

theorem getP_cls {o o' : PyVal} (h : cls o = cls o') (p : List Fld) : (getP o p).map cls = (getP o' p).map cls := by
  induction p generalizing o o' with
  | nil => simp [getP, h]
  | cons f p ih =>
    have hg := get_cls h f
    simp only [getP]
    cases h1 : getAttr o f with
    | none =>
      cases h2 : getAttr o' f with
      | none => rfl
      | some y => simp [h1, h2] at hg
    | some x =>
      cases h2 : getAttr o' f with
      | none => simp [h1, h2] at hg
      | some y =>
        simp only [h1, h2, Option.map_some, Option.some.injEq] at hg
        exact ih hg

/-- Replacing a part by another of the same class. -/
theorem setP_spec {o y x : PyVal} {p : List Fld} (h : getP o p = some y) (hc : cls x = cls y) :
    ∃ o', setP o p x = some o' ∧ cls o' = cls o ∧ getP o' p = some x ∧ ∀ q, Apart p q → getP o' q = getP o q := by
  induction p generalizing o with
  | nil =>
    cases h
    refine ⟨x, rfl, hc, rfl, fun q hq => absurd List.nil_prefix hq.1⟩
  | cons f p ih =>
    simp only [getP] at h
    cases h1 : getAttr o f with
    | none => simp [h1] at h
    | some s =>
      rw [h1] at h
      obtain ⟨s', e1, e2, e3, e4⟩ := ih h
      obtain ⟨o', e5⟩ := set_some h1 e2
      refine ⟨o', ?_, set_cls e5, ?_, ?_⟩
      · simp only [setP, h1, Option.bind_eq_bind, Option.bind_some, e1]
        exact e5
      · simp only [getP, get_set e5]
        exact e3
      · intro q hq
        cases q with
        | nil => exact absurd List.nil_prefix hq.2
        | cons g q =>
          simp only [getP]
          by_cases hg : g = f
          · subst hg
            rw [get_set e5, h1]
            refine e4 q ⟨fun c => hq.1 ?_, fun c => hq.2 ?_⟩
            · exact List.cons_prefix_cons.2 ⟨rfl, c⟩
            · exact List.cons_prefix_cons.2 ⟨rfl, c⟩
          · rw [get_set_ne e5 hg]

/-! ## Programs -/

/-- Objects exist up to `next`; variables lead to values. -/
structure Inv (s : St) : Prop where
  lt : ∀ v r, s.vars v = some r → r.obj < s.next
  val : ∀ v r, s.vars v = some r → ∃ o, s.deref r = some o

/-- `s'` has the objects of `s`, with the same classes. -/
def Ext (s s' : St) : Prop :=
  s.next ≤ s'.next ∧ ∀ x, x < s.next → (s'.objs x).map cls = (s.objs x).map cls

theorem Ext.deref {s s' : St} (h : Ext s s') {r : Ref} (hr : r.obj < s.next) : (s'.deref r).map cls = (s.deref r).map cls := by
  have := h.2 _ hr
  unfold St.deref
  cases h1 : s'.objs r.obj with
  | none =>
    cases h2 : s.objs r.obj with
    | none => rfl
    | some y => simp [h1, h2] at this
  | some x =>
    cases h2 : s.objs r.obj with
    | none => simp [h1, h2] at this
    | some y =>
      simp only [h1, h2, Option.map_some, Option.some.injEq] at this
      exact getP_cls this r.path

theorem Ext.some {s s' : St} (h : Ext s s') {r : Ref} (hr : r.obj < s.next) {o : PyVal} (ho : s.deref r = some o) :
    ∃ o', s'.deref r = some o' ∧ cls o' = cls o := by
  have := h.deref hr
  rw [ho] at this
  cases h1 : s'.deref r with
  | none => simp [h1] at this
  | some x => exact ⟨x, rfl, by simpa [h1] using this⟩

theorem Ext.refl (s : St) : Ext s s := ⟨le_refl _, fun _ _ => rfl⟩

theorem Ext.trans {a b c : St} (h : Ext a b) (h' : Ext b c) : Ext a c :=
  ⟨le_trans h.1 h'.1, fun x hx => (h'.2 x (lt_of_lt_of_le hx h.1)).trans (h.2 x hx)⟩

theorem new_ext (s : St) (v : ℕ) (o : PyVal) : Ext s (s.new v o) := by
  refine ⟨Nat.le_succ _, fun x hx => ?_⟩
  simp only [St.new]
  rw [if_neg (Nat.ne_of_lt hx)]

theorem new_deref (s : St) (v : ℕ) (o : PyVal) {r : Ref} (hr : r.obj < s.next) : (s.new v o).deref r = s.deref r := by
  simp only [St.deref, St.new]
  rw [if_neg (Nat.ne_of_lt hr)]

theorem new_inv {s : St} (h : Inv s) (v : ℕ) (o : PyVal) : Inv (s.new v o) := by
  constructor
  · intro u r hu
    simp only [St.new] at hu ⊢
    split at hu
    · cases hu; exact Nat.lt_succ_self _
    · exact Nat.lt_succ_of_lt (h.lt u r hu)
  · intro u r hu
    by_cases e : u = v
    · simp only [St.new, if_pos e, Option.some.injEq] at hu
      subst hu
      exact ⟨o, by simp [St.deref, St.new, getP]⟩
    · simp only [St.new, if_neg e] at hu
      rw [new_deref s v o (h.lt u r hu)]
      exact h.val u r hu

theorem new_val (s : St) (v : ℕ) (o : PyVal) : (s.new v o).val v = some o := by
  simp [St.val, St.new, St.deref, getP]

theorem write_spec {s : St} {r : Ref} {x y : PyVal} (h : s.deref r = some y) (hc : cls x = cls y) :
    ∃ s', s.write r x = some s' ∧ s'.vars = s.vars ∧ s'.next = s.next ∧ Ext s s' ∧ s'.deref r = some x ∧
      ∀ r' : Ref, (r'.obj = r.obj → Apart r.path r'.path) → s'.deref r' = s.deref r' := by
  unfold St.deref at h
  cases h1 : s.objs r.obj with
  | none => simp [h1] at h
  | some o =>
    rw [h1] at h
    obtain ⟨o', e1, e2, e3, e4⟩ := setP_spec (o := o) h hc
    refine ⟨{ s with objs := fun y => if y = r.obj then some o' else s.objs y },
      by simp only [St.write, h1, Option.bind_eq_bind, Option.bind_some, e1], rfl, rfl, ⟨le_refl _, fun z _ => ?_⟩, ?_, ?_⟩
    · dsimp only
      by_cases hz : z = r.obj
      · rw [if_pos hz, hz, h1]; simp [e2]
      · rw [if_neg hz]
    · simp only [St.deref, if_true, Option.bind_eq_bind, Option.bind_some]
      exact e3
    · intro r' hr
      simp only [St.deref]
      by_cases hz : r'.obj = r.obj
      · rw [if_pos hz, hz, h1]
        exact e4 _ (hr hz)
      · rw [if_neg hz]

theorem item_cls (m : Meth) {o x : PyVal} (h : m.run o = some x) : cls x = cls o := by
  cases m <;> cases o <;> simp only [Meth.run, reduceCtorEq, Option.map_eq_some_iff, Option.some.injEq] at h <;>
    first | (subst h; rfl) | (obtain ⟨_, -, rfl⟩ := h; rfl)

theorem iop_cls (o : Op) {a b x : PyVal} (h : iop o a b = some x) : cls x = cls a := by
  cases o <;> cases a <;> cases b <;> simp only [iop, reduceCtorEq, Option.some.injEq] at h <;> subst h <;> rfl

/-- Location that a statement writes to, if it writes. -/
def Stmt.loc (s : St) : Stmt → Option Ref
  | .setAttr w f _ | .augAttr w f _ _ => (s.vars w).map fun r => ⟨r.obj, r.path ++ [f]⟩
  | .meth w _ | .aug w _ _ => s.vars w
  | _ => none

/-- The three kinds of effects: a new object, another reference for a variable, a write. -/
theorem step_cases {s s' : St} (hi : Inv s) {o : Stmt} (h : s.step o = some s') :
    (∃ v x, s' = s.new v x) ∨
    (∃ v r, s' = s.setVar v r ∧ r.obj < s.next ∧ ∃ y, s.deref r = some y) ∨
    (∃ r x y, o.loc s = some r ∧ s.deref r = some y ∧ cls x = cls y ∧ s.write r x = some s' ∧ r.obj < s.next) := by
  have sub {w : ℕ} {r : Ref} {c y : PyVal} {f : Fld} (hr : s.vars w = some r) (hc : s.val w = some c) (hy : getAttr c f = some y) :
      s.deref ⟨r.obj, r.path ++ [f]⟩ = some y := by
    simp only [St.val, hr, Option.bind_eq_bind, Option.bind_some] at hc
    unfold St.deref at hc ⊢
    cases h1 : s.objs r.obj with
    | none => simp [h1] at hc
    | some o =>
      simp only [h1, Option.bind_eq_bind, Option.bind_some] at hc ⊢
      rw [getP_append, hc]
      simp [getP, hy]
  have dv {w : ℕ} {r : Ref} {c : PyVal} (hr : s.vars w = some r) (hc : s.val w = some c) : s.deref r = some c := by
    simpa [St.val, hr] using hc
  cases o with
  | make v o => cases h; exact .inl ⟨v, o, rfl⟩
  | copy v w =>
    simp only [St.step, Option.bind_eq_bind, Option.bind_eq_some_iff, Option.some.injEq] at h
    obtain ⟨x, -, rfl⟩ := h
    exact .inl ⟨v, x, rfl⟩
  | «alias» v w =>
    simp only [St.step, Option.bind_eq_bind, Option.bind_eq_some_iff, Option.some.injEq] at h
    obtain ⟨r, hr, rfl⟩ := h
    exact .inr (.inl ⟨v, r, rfl, hi.lt w r hr, hi.val w r hr⟩)
  | attr v w f =>
    simp only [St.step, Option.bind_eq_bind, Option.bind_eq_some_iff, Option.some.injEq] at h
    obtain ⟨r, hr, c, hc, y, hy, rfl⟩ := h
    exact .inr (.inl ⟨v, _, rfl, hi.lt w r hr, y, sub hr hc hy⟩)
  | setAttr w f u =>
    simp only [St.step, Option.bind_eq_bind, Option.bind_eq_some_iff] at h
    obtain ⟨r, hr, c, hc, x, -, c', hs, hw⟩ := h
    obtain ⟨y, hy, hxy⟩ := get_of_set hs
    exact .inr (.inr ⟨_, x, y, by simp only [Stmt.loc, hr, Option.map_some], sub hr hc hy, hxy, hw, hi.lt w r hr⟩)
  | meth w m =>
    simp only [St.step, Option.bind_eq_bind, Option.bind_eq_some_iff] at h
    obtain ⟨r, hr, c, hc, x, hx, hw⟩ := h
    exact .inr (.inr ⟨r, x, c, hr, dv hr hc, item_cls m hx, hw, hi.lt w r hr⟩)
  | binary v o w u =>
    simp only [St.step, Option.bind_eq_bind, Option.bind_eq_some_iff, Option.some.injEq] at h
    obtain ⟨-, -, -, -, x, -, rfl⟩ := h
    exact .inl ⟨v, x, rfl⟩
  | aug w o u =>
    simp only [St.step, Option.bind_eq_bind, Option.bind_eq_some_iff] at h
    obtain ⟨r, hr, a, ha, b, -, hx⟩ := h
    split at hx
    · rename_i x e
      exact .inr (.inr ⟨r, x, a, hr, dv hr ha, iop_cls o e, hx, hi.lt w r hr⟩)
    · simp only [Option.bind_eq_some_iff, Option.some.injEq] at hx
      obtain ⟨x, -, rfl⟩ := hx
      exact .inl ⟨w, x, rfl⟩
  | augAttr w f o u =>
    simp only [St.step, Option.bind_eq_bind, Option.bind_eq_some_iff] at h
    obtain ⟨r, hr, c, hc, a, ha, b, -, hx⟩ := h
    split at hx
    · rename_i x e
      exact .inr (.inr ⟨_, x, a, by simp only [Stmt.loc, hr, Option.map_some], sub hr hc ha, iop_cls o e, hx, hi.lt w r hr⟩)
    · simp only [Option.bind_eq_some_iff] at hx
      obtain ⟨x, -, c', hs, hw⟩ := hx
      obtain ⟨y, hy, hxy⟩ := get_of_set hs
      exact .inr (.inr ⟨_, x, y, by simp only [Stmt.loc, hr, Option.map_some], sub hr hc hy, hxy, hw, hi.lt w r hr⟩)

theorem step_inv {s s' : St} (hi : Inv s) {o : Stmt} (h : s.step o = some s') : Inv s' ∧ Ext s s' := by
  rcases step_cases hi h with ⟨v, x, rfl⟩ | ⟨v, r, rfl, hr, hy⟩ | ⟨r, x, y, -, hd, hc, hw, -⟩
  · exact ⟨new_inv hi v x, new_ext s v x⟩
  · refine ⟨⟨fun u r' hu => ?_, fun u r' hu => ?_⟩, le_refl _, fun _ _ => rfl⟩
    · simp only [St.setVar] at hu ⊢
      split at hu
      · cases hu; exact hr
      · exact hi.lt u r' hu
    · simp only [St.setVar] at hu
      split at hu
      · cases hu; exact hy
      · exact hi.val u r' hu
  · obtain ⟨s1, e1, e2, e3, e4, -, -⟩ := write_spec hd hc
    rw [hw] at e1
    cases e1
    refine ⟨⟨fun u r' hu => ?_, fun u r' hu => ?_⟩, e4⟩
    · rw [e2] at hu; rw [e3]; exact hi.lt u r' hu
    · rw [e2] at hu
      obtain ⟨o, ho⟩ := hi.val u r' hu
      obtain ⟨o', ho', -⟩ := e4.some (hi.lt u r' hu) ho
      exact ⟨o', ho'⟩

theorem run_inv {s s' : St} (hi : Inv s) {os : List Stmt} (h : s.run os = some s') : Inv s' ∧ Ext s s' := by
  induction os generalizing s with
  | nil => cases h; exact ⟨hi, .refl _⟩
  | cons o os ih =>
    simp only [St.run, Option.bind_eq_bind, Option.bind_eq_some_iff] at h
    obtain ⟨s1, h1, h2⟩ := h
    obtain ⟨i1, e1⟩ := step_inv hi h1
    obtain ⟨i2, e2⟩ := ih i1 h2
    exact ⟨i2, e1.trans e2⟩

theorem Inv.empty : Inv .empty := by constructor <;> simp [St.empty]

/-- States that a program reaches. -/
def Reached (s : St) : Prop := ∃ os, St.empty.run os = some s

theorem Reached.inv {s : St} (h : Reached s) : Inv s := by
  obtain ⟨os, h⟩ := h
  exact (run_inv .empty h).1

/-! ## C93 -/

/-- The attributes, by name. -/
theorem C93_attributes (a b : Vec) (A B : VecVel) (R : Rot) (Q : RotVel) :
    getAttr (wrench ⟨a, b⟩) .force = some (vec a) ∧ getAttr (wrench ⟨a, b⟩) .torque = some (vec b) ∧
    getAttr (twist ⟨a, b⟩) .vel = some (vec a) ∧ getAttr (twist ⟨a, b⟩) .rot = some (vec b) ∧
    getAttr (frame ⟨R, a⟩) .M = some (rot R) ∧ getAttr (frame ⟨R, a⟩) .p = some (vec a) ∧
    getAttr (vecVel ⟨a, b⟩) .p = some (vec a) ∧ getAttr (vecVel ⟨a, b⟩) .v = some (vec b) ∧
    getAttr (twistVel ⟨A, B⟩) .vel = some (vecVel A) ∧ getAttr (twistVel ⟨A, B⟩) .rot = some (vecVel B) ∧
    getAttr (rotVel ⟨R, a⟩) .R = some (rot R) ∧ getAttr (rotVel ⟨R, a⟩) .w = some (vec a) ∧
    getAttr (frameVel ⟨Q, A⟩) .M = some (rotVel Q) ∧ getAttr (frameVel ⟨Q, A⟩) .p = some (vecVel A) :=
  ⟨rfl, rfl, rfl, rfl, rfl, rfl, rfl, rfl, rfl, rfl, rfl, rfl, rfl, rfl⟩

/-- An assignment to an attribute is accepted exactly for a value of the class of the attribute; it stores that value, leaves the other
attributes and the class as they were. -/
theorem C93_setAttr (o x : PyVal) (f : Fld) :
    ((∃ o', setAttr o f x = some o') ↔ ∃ y, getAttr o f = some y ∧ cls x = cls y) ∧
    ∀ o', setAttr o f x = some o' → getAttr o' f = some x ∧ (∀ g, g ≠ f → getAttr o' g = getAttr o g) ∧ cls o' = cls o :=
  ⟨⟨fun ⟨_, h⟩ => get_of_set h, fun ⟨_, h, hc⟩ => set_some h hc⟩, fun _ h => ⟨get_set h, fun _ => get_set_ne h, set_cls h⟩⟩

/-- No variable of a program ever dangles: what it refers to has a value, and as long as the variable is not assigned, a value of the same
class. -/
theorem C93_safe {s : St} (hs : Reached s) {v : ℕ} {r : Ref} (hr : s.vars v = some r) {os : List Stmt} {s' : St}
    (h : s.run os = some s') (hv : s'.vars v = s.vars v) :
    ∃ o o', s.val v = some o ∧ s'.val v = some o' ∧ cls o' = cls o := by
  have hi := hs.inv
  obtain ⟨-, he⟩ := run_inv hi h
  obtain ⟨o, ho⟩ := hi.val v r hr
  obtain ⟨o', ho', hc⟩ := he.some (hi.lt v r hr) ho
  exact ⟨o, o', by simpa [St.val, hr] using ho, by simpa [St.val, hv, hr] using ho', hc⟩

/-- An attribute that was read stays a view: after `v = w.f` and any program that leaves `v` and `w` referring to what they refer to,
whatever was done to either of them or through other variables, the value of `v` is the attribute `f` of the value of `w`. -/
theorem C93_view {s s1 s2 : St} (hs : Reached s) {v w : ℕ} {f : Fld} (hvw : v ≠ w) (h : s.step (.attr v w f) = some s1)
    {os : List Stmt} (h2 : s1.run os = some s2) (hv : s2.vars v = s1.vars v) (hw : s2.vars w = s1.vars w) :
    ∃ a x, s2.val w = some a ∧ s2.val v = some x ∧ getAttr a f = some x := by
  have i1 := (step_inv hs.inv h).1
  obtain ⟨i2, e2⟩ := run_inv i1 h2
  simp only [St.step, Option.bind_eq_bind, Option.bind_eq_some_iff, Option.some.injEq] at h
  obtain ⟨r, hr, c, hc, y, hy, rfl⟩ := h
  have h1v : (s.setVar v ⟨r.obj, r.path ++ [f]⟩).vars v = some ⟨r.obj, r.path ++ [f]⟩ := by simp [St.setVar]
  have h1w : (s.setVar v ⟨r.obj, r.path ++ [f]⟩).vars w = some r := by simp [St.setVar, hvw.symm, hr]
  rw [h1v] at hv
  rw [h1w] at hw
  obtain ⟨a, ha⟩ := i2.val w r hw
  obtain ⟨x, hx⟩ := i2.val v _ hv
  refine ⟨a, x, by simpa [St.val, hw] using ha, by simpa [St.val, hv] using hx, ?_⟩
  unfold St.deref at ha hx
  cases h3 : s2.objs r.obj with
  | none => simp [h3] at ha
  | some o =>
    simp only [h3, Option.bind_eq_bind, Option.bind_some] at ha hx
    rw [getP_append, ha] at hx
    simpa [getP, Option.bind_eq_some_iff] using hx

/-- The variable that a statement may assign. -/
def Stmt.target : Stmt → Option ℕ
  | .make v _ | .copy v _ | .alias v _ | .attr v _ _ | .binary v _ _ _ | .aug v _ _ => some v
  | _ => none

/-- Variables other than the one on the left keep what they refer to. -/
theorem C93_others {s s' : St} {o : Stmt} (h : s.step o = some s') {v : ℕ} (hv : o.target ≠ some v) : s'.vars v = s.vars v := by
  have wr {r : Ref} {x : PyVal} (h : s.write r x = some s') : s'.vars = s.vars := by
    simp only [St.write, Option.bind_eq_bind, Option.bind_eq_some_iff, Option.some.injEq] at h
    obtain ⟨_, _, _, _, rfl⟩ := h
    rfl
  cases o with
  | make u o =>
    cases h
    have : v ≠ u := fun e => hv (by rw [e]; rfl)
    simp [St.new, this]
  | copy u w =>
    simp only [St.step, Option.bind_eq_bind, Option.bind_eq_some_iff, Option.some.injEq] at h
    obtain ⟨x, -, rfl⟩ := h
    have : v ≠ u := fun e => hv (by rw [e]; rfl)
    simp [St.new, this]
  | «alias» u w =>
    simp only [St.step, Option.bind_eq_bind, Option.bind_eq_some_iff, Option.some.injEq] at h
    obtain ⟨r, hr, rfl⟩ := h
    have : v ≠ u := fun e => hv (by rw [e]; rfl)
    simp [St.setVar, this]
  | attr u w f =>
    simp only [St.step, Option.bind_eq_bind, Option.bind_eq_some_iff, Option.some.injEq] at h
    obtain ⟨r, hr, c, hc, y, hy, rfl⟩ := h
    have : v ≠ u := fun e => hv (by rw [e]; rfl)
    simp [St.setVar, this]
  | setAttr w f u =>
    simp only [St.step, Option.bind_eq_bind, Option.bind_eq_some_iff] at h
    obtain ⟨r, hr, c, hc, x, -, c', hs, hw⟩ := h
    rw [wr hw]
  | meth w m =>
    simp only [St.step, Option.bind_eq_bind, Option.bind_eq_some_iff] at h
    obtain ⟨r, hr, c, hc, x, hx, hw⟩ := h
    rw [wr hw]
  | binary u o w a =>
    simp only [St.step, Option.bind_eq_bind, Option.bind_eq_some_iff, Option.some.injEq] at h
    obtain ⟨-, -, -, -, x, -, rfl⟩ := h
    have : v ≠ u := fun e => hv (by rw [e]; rfl)
    simp [St.new, this]
  | aug w o u =>
    simp only [St.step, Option.bind_eq_bind, Option.bind_eq_some_iff] at h
    obtain ⟨r, hr, a, ha, b, -, hx⟩ := h
    split at hx
    · rw [wr hx]
    · simp only [Option.bind_eq_some_iff, Option.some.injEq] at hx
      obtain ⟨x, -, rfl⟩ := hx
      have : v ≠ w := fun e => hv (by rw [e]; rfl)
      simp [St.new, this]
  | augAttr w f o u =>
    simp only [St.step, Option.bind_eq_bind, Option.bind_eq_some_iff] at h
    obtain ⟨r, hr, c, hc, a, ha, b, -, hx⟩ := h
    split at hx
    · rw [wr hx]
    · simp only [Option.bind_eq_some_iff] at hx
      obtain ⟨x, -, c', hs, hw⟩ := hx
      rw [wr hw]

/-- Frame rule: a statement changes the value of a variable that it does not assign only through a variable that refers to the same
object, at a place that contains or is contained in what the variable refers to. -/
theorem C93_frame {s s' : St} (hs : Reached s) {o : Stmt} (h : s.step o = some s') {v : ℕ} {r : Ref} (hr : s.vars v = some r)
    (hv : s'.vars v = s.vars v) (hf : ∀ q, o.loc s = some q → r.obj = q.obj → Apart q.path r.path) : s'.val v = s.val v := by
  have hi := hs.inv
  have e : s'.deref r = s.deref r := by
    rcases step_cases hi h with ⟨u, x, rfl⟩ | ⟨u, q, rfl, -, -⟩ | ⟨q, x, y, hl, hd, hc, hw, -⟩
    · exact new_deref s u x (hi.lt v r hr)
    · rfl
    · obtain ⟨s1, e1, -, -, -, -, e2⟩ := write_spec hd hc
      rw [hw] at e1
      cases e1
      exact e2 r (hf q hl)
  simp only [St.val, hv, hr, Option.bind_eq_bind, Option.bind_some, e]

/-- Statements that do not mention a variable. -/
def Stmt.Avoids (v : ℕ) : Stmt → Prop
  | .make u _ => u ≠ v
  | .copy u w | .alias u w | .attr u w _ => u ≠ v ∧ w ≠ v
  | .setAttr w _ u => w ≠ v ∧ u ≠ v
  | .meth w _ => w ≠ v
  | .binary u _ w a => u ≠ v ∧ w ≠ v ∧ ∀ x, a = .var x → x ≠ v
  | .aug w _ a | .augAttr w _ _ a => w ≠ v ∧ ∀ x, a = .var x → x ≠ v

theorem avoids_target {v : ℕ} {o : Stmt} (h : o.Avoids v) : o.target ≠ some v := by
  cases o <;> simp only [Stmt.Avoids] at h <;> simp only [Stmt.target, ne_eq, Option.some.injEq, reduceCtorEq, not_false_eq_true] <;>
    first | exact h | exact h.1

/-- Only `v` refers to the object of `v`. -/
def Alone (s : St) (v x : ℕ) : Prop := s.vars v = some ⟨x, []⟩ ∧ x < s.next ∧ ∀ u r, s.vars u = some r → u ≠ v → r.obj ≠ x

theorem alone_step {s s' : St} (hs : Reached s) {v x : ℕ} (ha : Alone s v x) {o : Stmt} (ho : o.Avoids v) (h : s.step o = some s') :
    Alone s' v x ∧ s'.val v = s.val v := by
  have hv := C93_others h (avoids_target ho)
  have hi := hs.inv
  refine ⟨⟨by rw [hv]; exact ha.1, lt_of_lt_of_le ha.2.1 (step_inv hi h).2.1, ?_⟩, ?_⟩
  · intro u r hu huv
    by_cases ht : o.target = some u
    · have key {w : ℕ} {q : Ref} (hq : s.vars w = some q) (hw : w ≠ v) : q.obj ≠ x := ha.2.2 w q hq hw
      cases o with
      | make u' o => cases h; cases ht; simp only [St.new, if_true, Option.some.injEq] at hu; subst hu; exact (Nat.ne_of_lt ha.2.1).symm
      | copy u' w =>
        simp only [St.step, Option.bind_eq_bind, Option.bind_eq_some_iff, Option.some.injEq] at h
        obtain ⟨x, -, rfl⟩ := h
        cases ht; simp only [St.new, if_true, Option.some.injEq] at hu; subst hu; exact (Nat.ne_of_lt ha.2.1).symm
      | «alias» u' w =>
        simp only [St.step, Option.bind_eq_bind, Option.bind_eq_some_iff, Option.some.injEq] at h
        obtain ⟨q, hq, rfl⟩ := h
        cases ht; simp only [St.setVar, if_true, Option.some.injEq] at hu; subst hu; exact key hq ho.2
      | attr u' w f =>
        simp only [St.step, Option.bind_eq_bind, Option.bind_eq_some_iff, Option.some.injEq] at h
        obtain ⟨q, hq, c, hc, y, hy, rfl⟩ := h
        cases ht; simp only [St.setVar, if_true, Option.some.injEq] at hu; subst hu; exact ha.2.2 w q hq ho.2
      | setAttr w f a => cases ht
      | meth w m => cases ht
      | binary u' o w a =>
        simp only [St.step, Option.bind_eq_bind, Option.bind_eq_some_iff, Option.some.injEq] at h
        obtain ⟨-, -, -, -, x, -, rfl⟩ := h
        cases ht; simp only [St.new, if_true, Option.some.injEq] at hu; subst hu; exact (Nat.ne_of_lt ha.2.1).symm
      | aug w o a =>
        have ht : w = u := by simpa [Stmt.target] using ht
        subst ht
        simp only [St.step, Option.bind_eq_bind, Option.bind_eq_some_iff] at h
        obtain ⟨q, hq, a, ha', b, -, hx⟩ := h
        split at hx
        · simp only [St.write, Option.bind_eq_bind, Option.bind_eq_some_iff, Option.some.injEq] at hx
          obtain ⟨_, _, _, _, rfl⟩ := hx
          exact ha.2.2 w r hu huv
        · simp only [Option.bind_eq_some_iff, Option.some.injEq] at hx
          obtain ⟨x, -, rfl⟩ := hx
          simp only [St.new, if_true, Option.some.injEq] at hu; subst hu; exact (Nat.ne_of_lt ha.2.1).symm
      | augAttr w f o a => cases ht
    · rw [C93_others h ht] at hu
      exact ha.2.2 u r hu huv
  · refine C93_frame hs h ha.1 hv fun q hq e => absurd e.symm ?_
    cases o with
    | setAttr w f a =>
      simp only [Stmt.loc, Option.map_eq_some_iff] at hq
      obtain ⟨r, hr, rfl⟩ := hq
      exact ha.2.2 w r hr ho.1
    | augAttr w f o a =>
      simp only [Stmt.loc, Option.map_eq_some_iff] at hq
      obtain ⟨r, hr, rfl⟩ := hq
      exact ha.2.2 w r hr ho.1
    | meth w m => exact ha.2.2 w q hq ho
    | aug w o a => exact ha.2.2 w q hq ho.1
    | _ => cases hq

theorem Reached.step {s s' : St} (hs : Reached s) {o : Stmt} (h : s.step o = some s') : Reached s' := by
  obtain ⟨os, hos⟩ := hs
  refine ⟨os ++ [o], ?_⟩
  have app (t : St) (l : List Stmt) (t' : St) (e : t.run l = some t') : t.run (l ++ [o]) = t'.step o := by
    induction l generalizing t with
    | nil =>
      cases e
      simp only [List.nil_append, St.run, Option.bind_eq_bind]
      cases t'.step o <;> rfl
    | cons a l ih =>
      simp only [St.run, Option.bind_eq_bind, Option.bind_eq_some_iff] at e
      obtain ⟨t1, e1, e2⟩ := e
      simp only [List.cons_append, St.run, e1, Option.bind_eq_bind, Option.bind_some]
      exact ih t1 e2
  rw [app _ _ _ hos, h]

theorem alone_run {s s' : St} (hs : Reached s) {v x : ℕ} (ha : Alone s v x) {os : List Stmt} (ho : ∀ o ∈ os, o.Avoids v)
    (h : s.run os = some s') : s'.val v = s.val v := by
  induction os generalizing s with
  | nil => cases h; rfl
  | cons o os ih =>
    simp only [St.run, Option.bind_eq_bind, Option.bind_eq_some_iff] at h
    obtain ⟨s1, h1, h2⟩ := h
    obtain ⟨a1, e1⟩ := alone_step hs ha (ho o (by simp)) h1
    rw [ih (hs.step h1) a1 (fun o' m => ho o' (by simp [m])) h2, e1]

theorem alone_new {s : St} (hs : Reached s) (v : ℕ) (o : PyVal) : Alone (s.new v o) v s.next := by
  refine ⟨by simp [St.new], Nat.lt_succ_self _, fun u r hu huv => ?_⟩
  simp only [St.new, if_neg huv] at hu
  exact Nat.ne_of_lt (hs.inv.lt u r hu)

/-- A copy is independent: `v = Cls(w)`, `copy.copy(w)` and `copy.deepcopy(w)` give the value that `w` has at that time, and no program that
does not mention `v` changes it. -/
theorem C93_copy {s s1 s2 : St} (hs : Reached s) {v w : ℕ} (h : s.step (.copy v w) = some s1) {os : List Stmt}
    (ho : ∀ o ∈ os, o.Avoids v) (h2 : s1.run os = some s2) : s2.val v = s.val w ∧ ∃ o, s.val w = some o := by
  have hs1 := hs.step h
  simp only [St.step, Option.bind_eq_bind, Option.bind_eq_some_iff, Option.some.injEq] at h
  obtain ⟨x, hx, rfl⟩ := h
  exact ⟨by rw [alone_run hs1 (alone_new hs v x) ho h2, new_val, hx], x, hx⟩

/-- The result of an operator is a new object as well. -/
theorem C93_binary {s s1 s2 : St} (hs : Reached s) {v w : ℕ} {o : Op} {a : Arg} (h : s.step (.binary v o w a) = some s1)
    {os : List Stmt} (ho : ∀ o ∈ os, o.Avoids v) (h2 : s1.run os = some s2) :
    ∃ x y z, s.val w = some x ∧ s.arg a = some y ∧ bop o x y = some z ∧ s2.val v = some z := by
  have hs1 := hs.step h
  simp only [St.step, Option.bind_eq_bind, Option.bind_eq_some_iff, Option.some.injEq] at h
  obtain ⟨x, hx, y, hy, z, hz, rfl⟩ := h
  exact ⟨x, y, z, hx, hy, hz, by rw [alone_run hs1 (alone_new hs v z) ho h2, new_val]⟩

theorem getAttr_sub {s : St} {w : ℕ} {r : Ref} {c : PyVal} (hr : s.vars w = some r) (hc : s.val w = some c) (g : Fld) :
    getAttr c g = s.deref ⟨r.obj, r.path ++ [g]⟩ := by
  simp only [St.val, hr, Option.bind_eq_bind, Option.bind_some] at hc
  unfold St.deref at hc ⊢
  cases h1 : s.objs r.obj with
  | none => simp [h1] at hc
  | some o =>
    simp only [h1, Option.bind_eq_bind, Option.bind_some] at hc ⊢
    rw [getP_append, hc]
    simp only [Option.bind_some, getP, Option.bind_eq_bind]
    cases getAttr c g <;> rfl

theorem apart_sibling (p : List Fld) {f g : Fld} (h : g ≠ f) : Apart (p ++ [f]) (p ++ [g]) := by
  constructor
  · intro c
    have := (List.prefix_append_right_inj p).1 c
    exact h (List.cons_prefix_cons.1 this).1.symm
  · intro c
    have := (List.prefix_append_right_inj p).1 c
    exact h (List.cons_prefix_cons.1 this).1

theorem write_attr {s s' : St} (hs : Reached s) {w : ℕ} {r : Ref} {c x y : PyVal} {f : Fld} (hr : s.vars w = some r) (hc : s.val w = some c)
    (hy : getAttr c f = some y) (hxy : cls x = cls y) (hw : s.write ⟨r.obj, r.path ++ [f]⟩ x = some s') :
    ∃ c', s'.val w = some c' ∧ getAttr c' f = some x ∧ ∀ g, g ≠ f → getAttr c' g = getAttr c g := by
  obtain ⟨s1, e1, e2, -, e3, e4, e5⟩ := write_spec (s := s) (r := ⟨r.obj, r.path ++ [f]⟩) (x := x)
    (by rw [← getAttr_sub hr hc]; exact hy) hxy
  rw [hw] at e1
  cases e1
  obtain ⟨c', hc', -⟩ := e3.some (hs.inv.lt w r hr) (o := c) (by simpa [St.val, hr] using hc)
  have hr' : s'.vars w = some r := by rw [e2]; exact hr
  have hv : s'.val w = some c' := by simpa [St.val, hr'] using hc'
  refine ⟨c', hv, by rw [getAttr_sub hr' hv]; exact e4, fun g hg => ?_⟩
  rw [getAttr_sub hr' hv, getAttr_sub hr hc]
  exact e5 _ fun _ => apart_sibling r.path hg

/-- `w.f = u` copies: afterwards the attribute has the value that `u` had, the other attributes are as they were. -/
theorem C93_assign {s s' : St} (hs : Reached s) {w u : ℕ} {f : Fld} (h : s.step (.setAttr w f u) = some s') :
    ∃ c c' x, s.val w = some c ∧ s.val u = some x ∧ s'.val w = some c' ∧ getAttr c' f = some x ∧
      ∀ g, g ≠ f → getAttr c' g = getAttr c g := by
  simp only [St.step, Option.bind_eq_bind, Option.bind_eq_some_iff] at h
  obtain ⟨r, hr, c, hc, x, hx, c1, hs1, hw⟩ := h
  obtain ⟨y, hy, hxy⟩ := get_of_set hs1
  obtain ⟨c', h1, h2, h3⟩ := write_attr hs hr hc hy hxy hw
  exact ⟨c, c', x, hc, hx, h1, h2, h3⟩

/-- The attribute does not follow `u` after `w.f = u`: whatever is done to `u` alone (that is, to another object) leaves `w` as it is. -/
theorem C93_assign_detached {s s' : St} (hs : Reached s) {w u : ℕ} {q r : Ref} (hw : s.vars w = some r) (hu : s.vars u = some q)
    (hne : q.obj ≠ r.obj) {o : Stmt} (ho : ∃ m, o = .meth u m) (h : s.step o = some s') : s'.val w = s.val w := by
  obtain ⟨m, rfl⟩ := ho
  refine C93_frame hs h hw (C93_others h (by simp [Stmt.target])) fun q' hq e => absurd ?_ hne
  simp only [Stmt.loc, hu, Option.some.injEq] at hq
  subst hq
  exact e.symm

/-- A method that changes its object does so for every variable through which the object is seen. -/
theorem C93_meth {s s' : St} (hs : Reached s) {w : ℕ} {m : Meth} (h : s.step (.meth w m) = some s') :
    ∃ o x, s.val w = some o ∧ m.run o = some x ∧ s'.val w = some x ∧ s'.vars = s.vars ∧
      ∀ v, s.vars v = s.vars w → s'.val v = some x := by
  simp only [St.step, Option.bind_eq_bind, Option.bind_eq_some_iff] at h
  obtain ⟨r, hr, c, hc, x, hx, hw⟩ := h
  obtain ⟨s1, e1, e2, -, e3, e4, e5⟩ := write_spec (s := s) (r := r) (x := x) (by simpa [St.val, hr] using hc) (item_cls m hx)
  rw [hw] at e1
  cases e1
  have (v : ℕ) (hv : s.vars v = s.vars w) : s'.val v = some x := by
    simp only [St.val, e2, hv, hr, Option.bind_eq_bind, Option.bind_some, e4]
  exact ⟨c, x, hc, hx, this w rfl, e2, this⟩

theorem item_spec {α : Type} {l l' : List ℝ} {i : ℤ} {a : ℝ} {r : Except PyErr Unit} {x' : α} {p : Option (Except PyErr Unit × α)}
    (h : p = some (r, x')) (hs : SetSpec l i a r l') :
    (0 ≤ i ∧ i < l.length ∧ FitsInt i → item p = some x' ∧ l' = l.set i.toNat a) ∧ (¬ (0 ≤ i ∧ i < l.length ∧ FitsInt i) → item p = none) := by
  subst h
  constructor
  · rintro ⟨h1, h2, h3⟩
    obtain ⟨k, rfl⟩ := Int.eq_ofNat_of_zero_le h1
    obtain ⟨rfl, e⟩ := hs.2.2 k rfl h3 (by exact_mod_cast h2)
    exact ⟨rfl, e⟩
  · intro hn
    by_cases hf : FitsInt i
    · obtain ⟨rfl, -⟩ := hs.2.1 hf fun c => hn ⟨c.1, c.2, hf⟩
      rfl
    · obtain ⟨rfl, -⟩ := hs.1 hf
      rfl

/-- `o[i] = a`: component `i` of a vector, twist or wrench is replaced and no other; other indices raise an exception. -/
theorem C93_setItem (i : ℤ) (a : ℝ) (v : Vec) (t : Twist) (w : Wrench) :
    (0 ≤ i ∧ i < 3 → ∃ v', (Meth.setItem i a).run (vec v) = some (vec v') ∧ v'.items = v.items.set i.toNat a) ∧
    (¬ (0 ≤ i ∧ i < 3) → (Meth.setItem i a).run (vec v) = none) ∧
    (0 ≤ i ∧ i < 6 → ∃ t', (Meth.setItem i a).run (twist t) = some (twist t') ∧ t'.items = t.items.set i.toNat a) ∧
    (¬ (0 ≤ i ∧ i < 6) → (Meth.setItem i a).run (twist t) = none) ∧
    (0 ≤ i ∧ i < 6 → ∃ w', (Meth.setItem i a).run (wrench w) = some (wrench w') ∧ w'.items = w.items.set i.toNat a) ∧
    (¬ (0 ≤ i ∧ i < 6) → (Meth.setItem i a).run (wrench w) = none) := by
  obtain ⟨⟨r1, v', h1, s1⟩, ⟨r2, t', h2, s2⟩, ⟨r3, w', h3, s3⟩, -, -⟩ := C79_setitem i a v t w ⟨0, 0, 0, 0, 0, 0, 0, 0, 0⟩ []
  obtain ⟨a1, b1⟩ := item_spec h1 s1
  obtain ⟨a2, b2⟩ := item_spec h2 s2
  obtain ⟨a3, b3⟩ := item_spec h3 s3
  simp only [Vec.items, Twist.items, Wrench.items, List.length_cons, List.length_nil] at a1 b1 a2 b2 a3 b3
  have f {n : ℤ} (hn : n ≤ 6) (h : 0 ≤ i ∧ i < n) : FitsInt i := by unfold FitsInt; constructor <;> omega
  refine ⟨fun h => ⟨v', ?_, ?_⟩, fun h => ?_, fun h => ⟨t', ?_, ?_⟩, fun h => ?_, fun h => ⟨w', ?_, ?_⟩, fun h => ?_⟩
  · simp only [Meth.run, (a1 ⟨h.1, h.2, f (by norm_num) h⟩).1, Option.map_some]
  · exact (a1 ⟨h.1, h.2, f (by norm_num) h⟩).2
  · simp only [Meth.run, b1 fun c => h ⟨c.1, c.2.1⟩, Option.map_none]
  · simp only [Meth.run, (a2 ⟨h.1, h.2, f (by norm_num) h⟩).1, Option.map_some]
  · exact (a2 ⟨h.1, h.2, f (by norm_num) h⟩).2
  · simp only [Meth.run, b2 fun c => h ⟨c.1, c.2.1⟩, Option.map_none]
  · simp only [Meth.run, (a3 ⟨h.1, h.2, f (by norm_num) h⟩).1, Option.map_some]
  · exact (a3 ⟨h.1, h.2, f (by norm_num) h⟩).2
  · simp only [Meth.run, b3 fun c => h ⟨c.1, c.2.1⟩, Option.map_none]

theorem item_spec2 {α : Type} {rows cols : ℕ} {m m' : ℕ → ℕ → ℝ} {i j : ℤ} {a : ℝ} {r : Except PyErr Unit} {x' : α}
    {p : Option (Except PyErr Unit × α)} (h : p = some (r, x')) (hs : SetSpec2 rows cols m i j a r m') (hr : rows ≤ 4) (hc : cols ≤ 4) :
    ((0 ≤ i ∧ i < rows) ∧ (0 ≤ j ∧ j < cols) → item p = some x' ∧ ∀ k < rows, ∀ l < cols, m' k l = if i = k ∧ j = l then a else m k l) ∧
    (¬ ((0 ≤ i ∧ i < rows) ∧ (0 ≤ j ∧ j < cols)) → item p = none) := by
  subst h
  constructor
  · rintro ⟨h1, h2⟩
    obtain ⟨rfl, e⟩ := hs.2.2 (by unfold FitsInt; constructor <;> omega) (by unfold FitsInt; constructor <;> omega) h1 h2
    exact ⟨rfl, e⟩
  · intro hn
    by_cases hf : FitsInt i ∧ FitsInt j
    · obtain ⟨rfl, -⟩ := hs.2.1 hf.1 hf.2 hn
      rfl
    · obtain ⟨rfl, -⟩ := hs.1 hf
      rfl

/-- `o[i, j] = a`: the element in row `i` and column `j` of a rotation or of the upper three rows of a frame is replaced and no other;
other indices raise an exception. -/
theorem C93_setItem2 (i j : ℤ) (a : ℝ) (R : Rot) (F : Frame) :
    ((0 ≤ i ∧ i < 3) ∧ (0 ≤ j ∧ j < 3) → ∃ R', (Meth.setItem2 i j a).run (rot R) = some (rot R') ∧
      ∀ k < 3, ∀ l < 3, R'.mat k l = if i = k ∧ j = l then a else R.mat k l) ∧
    (¬ ((0 ≤ i ∧ i < 3) ∧ (0 ≤ j ∧ j < 3)) → (Meth.setItem2 i j a).run (rot R) = none) ∧
    ((0 ≤ i ∧ i < 3) ∧ (0 ≤ j ∧ j < 4) → ∃ F', (Meth.setItem2 i j a).run (frame F) = some (frame F') ∧
      ∀ k < 3, ∀ l < 4, F'.mat k l = if i = k ∧ j = l then a else F.mat k l) ∧
    (¬ ((0 ≤ i ∧ i < 3) ∧ (0 ≤ j ∧ j < 4)) → (Meth.setItem2 i j a).run (frame F) = none) := by
  obtain ⟨⟨r1, R', h1, s1⟩, ⟨r2, F', h2, s2⟩, -⟩ := C79_setitem2 i j a R F [] ⟨0, fun _ _ => 0⟩
  obtain ⟨a1, b1⟩ := item_spec2 h1 s1 (by norm_num) (by norm_num)
  obtain ⟨a2, b2⟩ := item_spec2 h2 s2 (by norm_num) (by norm_num)
  refine ⟨fun h => ⟨R', ?_, (a1 h).2⟩, fun h => ?_, fun h => ⟨F', ?_, (a2 h).2⟩, fun h => ?_⟩
  · simp only [Meth.run, (a1 h).1, Option.map_some]
  · simp only [Meth.run, b1 h, Option.map_none]
  · simp only [Meth.run, (a2 h).1, Option.map_some]
  · simp only [Meth.run, b2 h, Option.map_none]

/-- The other methods that change their object. -/
theorem C93_methods (v : Vec) (t : Twist) (w : Wrench) (A B : VecVel) (R : Rot) (a : ℝ) :
    Meth.reverseSign.run (vec v) = some (vec ⟨-v.x, -v.y, -v.z⟩) ∧ Meth.reverseSign.run (twist t) = some (twist ⟨-t.vel, -t.rot⟩) ∧
    Meth.reverseSign.run (wrench w) = some (wrench ⟨-w.force, -w.torque⟩) ∧
    Meth.reverseSign.run (vecVel A) = some (vecVel ⟨-A.p, -A.v⟩) ∧
    Meth.reverseSign.run (twistVel ⟨A, B⟩) = some (twistVel ⟨⟨-A.p, -A.v⟩, ⟨-B.p, -B.v⟩⟩) ∧
    Meth.setToZero.run (vec v) = some (vec ⟨0, 0, 0⟩) ∧ Meth.setToZero.run (twist t) = some (twist ⟨⟨0, 0, 0⟩, ⟨0, 0, 0⟩⟩) ∧
    Meth.setToZero.run (wrench w) = some (wrench ⟨⟨0, 0, 0⟩, ⟨0, 0, 0⟩⟩) ∧
    Meth.setToZero.run (vecVel A) = some (vecVel ⟨⟨0, 0, 0⟩, ⟨0, 0, 0⟩⟩) ∧
    Meth.setToZero.run (twistVel ⟨A, B⟩) = some (twistVel ⟨⟨⟨0, 0, 0⟩, ⟨0, 0, 0⟩⟩, ⟨⟨0, 0, 0⟩, ⟨0, 0, 0⟩⟩⟩) ∧
    Meth.setInverse.run (rot R) = some (rot ⟨R.m00, R.m10, R.m20, R.m01, R.m11, R.m21, R.m02, R.m12, R.m22⟩) ∧
    (Meth.doRotX a).run (rot R) = some (rot (R * Rot.rotX a)) ∧ (Meth.doRotY a).run (rot R) = some (rot (R * Rot.rotY a)) ∧
    (Meth.doRotZ a).run (rot R) = some (rot (R * Rot.rotZ a)) ∧
    (Meth.unitX v).run (rot R) = some (rot ⟨v.x, R.m01, R.m02, v.y, R.m11, R.m12, v.z, R.m21, R.m22⟩) ∧
    (Meth.unitY v).run (rot R) = some (rot ⟨R.m00, v.x, R.m02, R.m10, v.y, R.m12, R.m20, v.z, R.m22⟩) ∧
    (Meth.unitZ v).run (rot R) = some (rot ⟨R.m00, R.m01, v.x, R.m10, R.m11, v.y, R.m20, R.m21, v.z⟩) ∧
    (∃ n : Vec, Meth.normalize.run (vec v) = some (vec n) ∧ n.x ^ 2 + n.y ^ 2 + n.z ^ 2 = 1 ∧
      (1e-6 ≤ |v.x| ∨ 1e-6 ≤ |v.y| ∨ 1e-6 ≤ |v.z| → ∃ l : ℝ, 0 < l ∧ l • n = v)) := by
  refine ⟨rfl, rfl, rfl, rfl, rfl, rfl, rfl, rfl, rfl, rfl, rfl, ?_, ?_, ?_, rfl, rfl, rfl, v.normalize.1, rfl, ?_, fun h => ?_⟩
  · simp only [Meth.run, C12_doRotX]
  · simp only [Meth.run, C12_doRotY]
  · simp only [Meth.run, C12_doRotZ]
  · have := C14_normalize_unit v epsilon epsilon_pos
    simp only [Vec.dot] at this
    linear_combination this
  · have he : (1e-6 : ℝ) = epsilon := by norm_num [epsilon]
    rw [he] at h
    have h' : epsilon ≤ |v.x| ∨ |v.x| < |v.y| ∨ |v.x| < |v.z| := by
      by_cases hx : epsilon ≤ |v.x|
      · exact .inl hx
      · have hx := not_le.1 hx
        rcases h with h | h | h
        · exact .inl h
        · exact .inr (.inl (lt_of_lt_of_le hx h))
        · exact .inr (.inr (lt_of_lt_of_le hx h))
    have hn := C14_norm_partial v epsilon epsilon_pos h'
    have hl : epsilon ≤ v.len := by
      unfold Vec.len
      apply Real.le_sqrt_of_sq_le
      have e0 := epsilon_pos
      rcases h with h | h | h
      · have : epsilon ^ 2 ≤ v.x ^ 2 := by rw [← sq_abs v.x]; exact pow_le_pow_left₀ e0.le h 2
        nlinarith [sq_nonneg v.y, sq_nonneg v.z]
      · have : epsilon ^ 2 ≤ v.y ^ 2 := by rw [← sq_abs v.y]; exact pow_le_pow_left₀ e0.le h 2
        nlinarith [sq_nonneg v.x, sq_nonneg v.z]
      · have : epsilon ^ 2 ≤ v.z ^ 2 := by rw [← sq_abs v.z]; exact pow_le_pow_left₀ e0.le h 2
        nlinarith [sq_nonneg v.y, sq_nonneg v.x]
    exact ⟨v.len, lt_of_lt_of_le epsilon_pos hl, ((C14_normalize_spec v epsilon epsilon_pos).2 (by rw [hn]; exact hl)).2⟩

/-- Classes with `+=` and `-=`. -/
def Additive (c : Option PyClass) : Prop :=
  c = some .vec ∨ c = some .wrench ∨ c = some .twist ∨ c = some .vecVel ∨ c = some .twistVel

/-- Class of the result of an operator, `none` for a `TypeError`; the class `none` is that of floats. -/
def resCls : Op → Option PyClass → Option PyClass → Option (Option PyClass)
  | .div, some .vec, none => some (some .vec)
  | .div, some .wrench, none => some (some .wrench)
  | .div, some .twist, none => some (some .twist)
  | .div, some .vecVel, none => some (some .vecVel)
  | .div, some .twistVel, none => some (some .twistVel)
  | .div, _, _ => none
  | .mul, none, some c | .mul, some c, none => if c = .vec ∨ c = .wrench ∨ c = .twist ∨ c = .vecVel ∨ c = .twistVel then some (some c) else none
  | .mul, some .vec, some .vec => some (some .vec)
  | .mul, some .vec, some .vecVel => some (some .vecVel)
  | .mul, some .vecVel, some c => if c = .vec ∨ c = .vecVel then some (some .vecVel) else none
  | .mul, some .rot, some c =>
    if c = .vec ∨ c = .wrench ∨ c = .twist ∨ c = .rot ∨ c = .vecVel ∨ c = .rotVel then some (some c) else none
  | .mul, some .frame, some c => if c = .vec ∨ c = .wrench ∨ c = .twist ∨ c = .frame ∨ c = .frameVel then some (some c) else none
  | .mul, some .rotVel, some c =>
    if c = .vec ∨ c = .vecVel then some (some .vecVel) else if c = .twist ∨ c = .twistVel then some (some .twistVel)
    else if c = .rot ∨ c = .rotVel then some (some .rotVel) else none
  | .mul, some .frameVel, some c =>
    if c = .vec ∨ c = .vecVel then some (some .vecVel) else if c = .twist ∨ c = .twistVel then some (some .twistVel)
    else if c = .frame ∨ c = .frameVel then some (some .frameVel) else none
  | .mul, _, _ => none
  | _, some .vec, some .vec => some (some .vec)
  | _, some .vec, some .vecVel | _, some .vecVel, some .vec | _, some .vecVel, some .vecVel => some (some .vecVel)
  | _, some .wrench, some .wrench => some (some .wrench)
  | _, some .twist, some .twist => some (some .twist)
  | _, some .twistVel, some .twistVel => some (some .twistVel)
  | _, _, _ => none

/-- Which operands each operator takes, and the class of the result.  (`Rotation * TwistVel` and `Frame * VectorVel` are not among them.) -/
theorem C93_operands (o : Op) (a b : PyVal) : (bop o a b).map cls = resCls o (cls a) (cls b) := by
  cases o <;> cases a <;> cases b <;> rfl

/-- What the operators between objects compute: the C++ operator of the same operands, with an operand without velocity standing for one of
velocity zero. -/
theorem C93_operators (a b : Vec) (c : ℝ) (R S : Rot) (F G : Frame) (t : Twist) (w : Wrench) (A : VecVel) (Q : RotVel) (H K : FrameVel)
    (T : TwistVel) :
    bop .add (vec a) (vec b) = some (vec (a + b)) ∧ bop .sub (vec a) (vec b) = some (vec (a - b)) ∧
    bop .mul (vec a) (num c) = some (vec (c • a)) ∧ bop .mul (num c) (vec a) = some (vec (c • a)) ∧
    bop .mul (vec a) (vec b) = some (vec (a * b)) ∧ (c ≠ 0 → bop .div (vec a) (num c) = some (vec (c⁻¹ • a))) ∧
    bop .mul (rot R) (vec a) = some (vec (R * a)) ∧ bop .mul (rot R) (rot S) = some (rot (R * S)) ∧
    bop .mul (rot R) (twist t) = some (twist ⟨R * t.vel, R * t.rot⟩) ∧
    bop .mul (rot R) (wrench w) = some (wrench ⟨R * w.force, R * w.torque⟩) ∧
    bop .mul (frame F) (vec a) = some (vec (F * a)) ∧ bop .mul (frame F) (frame G) = some (frame (F * G)) ∧
    bop .mul (frame F) (twist t) = some (twist (F * t)) ∧ bop .mul (frame F) (wrench w) = some (wrench (F * w)) ∧
    bop .add (vec a) (vecVel A) = bop .add (vecVel ⟨a, 0⟩) (vecVel A) ∧ bop .add (vecVel A) (vec a) = bop .add (vecVel A) (vecVel ⟨a, 0⟩) ∧
    bop .sub (vec a) (vecVel A) = bop .sub (vecVel ⟨a, 0⟩) (vecVel A) ∧ bop .sub (vecVel A) (vec a) = bop .sub (vecVel A) (vecVel ⟨a, 0⟩) ∧
    bop .mul (vec a) (vecVel A) = bop .mul (vecVel ⟨a, 0⟩) (vecVel A) ∧ bop .mul (vecVel A) (vec a) = bop .mul (vecVel A) (vecVel ⟨a, 0⟩) ∧
    bop .mul (rotVel Q) (vec a) = bop .mul (rotVel Q) (vecVel ⟨a, 0⟩) ∧
    bop .mul (rotVel Q) (twist t) = bop .mul (rotVel Q) (twistVel ⟨⟨t.vel, 0⟩, ⟨t.rot, 0⟩⟩) ∧
    bop .mul (rot R) (rotVel Q) = bop .mul (rotVel ⟨R, 0⟩) (rotVel Q) ∧ bop .mul (rotVel Q) (rot R) = bop .mul (rotVel Q) (rotVel ⟨R, 0⟩) ∧
    bop .mul (rot R) (vecVel A) = bop .mul (rotVel ⟨R, 0⟩) (vecVel A) ∧
    bop .mul (frameVel H) (vec a) = bop .mul (frameVel H) (vecVel ⟨a, 0⟩) ∧
    bop .mul (frame F) (frameVel H) = bop .mul (frameVel ⟨⟨F.M, 0⟩, ⟨F.p, 0⟩⟩) (frameVel H) ∧
    bop .mul (frameVel H) (frame F) = bop .mul (frameVel H) (frameVel ⟨⟨F.M, 0⟩, ⟨F.p, 0⟩⟩) ∧
    bop .mul (frameVel H) (frameVel K) = some (frameVel (H.mul K)) ∧ bop .mul (frameVel H) (twistVel T) = some (twistVel (H.appTwist T)) ∧
    bop .mul (frameVel H) (twist t) = bop .mul (frameVel H) (twistVel ⟨⟨t.vel, 0⟩, ⟨t.rot, 0⟩⟩) := by
  refine ⟨rfl, rfl, rfl, rfl, rfl, fun _ => ?_, rfl, rfl, rfl, rfl, rfl, rfl, rfl, rfl, ?_, ?_, ?_, ?_, ?_, ?_, ?_, ?_, ?_, ?_, ?_, ?_, ?_, ?_,
    rfl, rfl, ?_⟩
  · refine congrArg some (congrArg vec ?_)
    ext <;> simp <;> ring
  all_goals
    simp only [bop, Option.some.injEq, PyVal.vecVel.injEq, PyVal.rotVel.injEq, PyVal.twistVel.injEq, PyVal.frameVel.injEq]
    (ext <;> simp [VecVel.addL, VecVel.addR, VecVel.add, VecVel.subL, VecVel.subR, VecVel.sub, VecVel.crossL, VecVel.crossR, VecVel.cross,
        RotVel.appR, RotVel.app, RotVel.appTwistR, RotVel.appTwist, RotVel.mulL, RotVel.mulR, RotVel.mul, VecVel.rotL, FrameVel.appR,
        FrameVel.app, FrameVel.mulL, FrameVel.mulR, FrameVel.mul, FrameVel.appTwistR, FrameVel.appTwist] <;> try ring)

/-- In-place operators exist for `+` and `-` between objects of the same additive class, and they compute what the binary operator
computes. -/
theorem C93_inplace (o : Op) (a b : PyVal) :
    ((∃ x, iop o a b = some x) ↔ (o = .add ∨ o = .sub) ∧ cls a = cls b ∧ Additive (cls a)) ∧
    ∀ x, iop o a b = some x → bop o a b = some x := by
  constructor
  · unfold Additive
    cases o <;> cases a <;> cases b <;> simp [iop, cls]
  · intro x h
    cases o <;> cases a <;> cases b <;> simp only [iop, reduceCtorEq, Option.some.injEq] at h <;> subst h <;> rfl

/-- Augmented assignment to a variable: the value is that of the binary operator.  Between objects of one additive class with `+=` and `-=`
the variable keeps its object, so all variables with that reference see the change; otherwise the variable is given a new object. -/
theorem C93_aug {s s' : St} (hs : Reached s) {w : ℕ} {o : Op} {u : Arg} (h : s.step (.aug w o u) = some s') :
    ∃ a b x, s.val w = some a ∧ s.arg u = some b ∧ bop o a b = some x ∧ s'.val w = some x ∧
      ((o = .add ∨ o = .sub) ∧ cls a = cls b ∧ Additive (cls a) → s'.vars = s.vars ∧ ∀ v, s.vars v = s.vars w → s'.val v = some x) ∧
      (¬ ((o = .add ∨ o = .sub) ∧ cls a = cls b ∧ Additive (cls a)) → s'.vars w ≠ s.vars w ∧
        ∀ v, v ≠ w → ∀ r, s.vars v = some r → s'.val v = s.val v) := by
  simp only [St.step, Option.bind_eq_bind, Option.bind_eq_some_iff] at h
  obtain ⟨r, hr, a, ha, b, hb, hx⟩ := h
  have hi := C93_inplace o a b
  split at hx
  · rename_i x e
    obtain ⟨s1, e1, e2, -, e3, e4, e5⟩ := write_spec (s := s) (r := r) (x := x) (by simpa [St.val, hr] using ha) (iop_cls o e)
    rw [hx] at e1
    cases e1
    have (v : ℕ) (hv : s.vars v = s.vars w) : s'.val v = some x := by
      simp only [St.val, e2, hv, hr, Option.bind_eq_bind, Option.bind_some, e4]
    exact ⟨a, b, x, ha, hb, hi.2 x e, this w rfl, fun _ => ⟨e2, this⟩, fun n => absurd (hi.1.1 ⟨x, e⟩) n⟩
  · rename_i e
    simp only [Option.bind_eq_some_iff, Option.some.injEq] at hx
    obtain ⟨x, hx, rfl⟩ := hx
    refine ⟨a, b, x, ha, hb, hx, new_val s w x, fun n => ?_, fun _ => ⟨?_, fun v hv q hq => ?_⟩⟩
    · obtain ⟨y, hy⟩ := hi.1.2 n
      rw [e] at hy
      cases hy
    · rw [hr]
      simp only [St.new, if_true, ne_eq, Option.some.injEq]
      intro c
      have := hs.inv.lt w r hr
      rw [← c] at this
      exact absurd this (lt_irrefl _)
    · have e1 : (s.new w x).vars v = s.vars v := by simp [St.new, hv]
      simp only [St.val, e1, hq, Option.bind_eq_bind, Option.bind_some]
      exact new_deref s w x (hs.inv.lt v q hq)

/-- Augmented assignment to an attribute changes the attribute to the value of the binary operator and nothing else of the object; no
variable is given another reference. -/
theorem C93_augAttr {s s' : St} (hs : Reached s) {w : ℕ} {f : Fld} {o : Op} {u : Arg} (h : s.step (.augAttr w f o u) = some s') :
    ∃ c a b x c', s.val w = some c ∧ getAttr c f = some a ∧ s.arg u = some b ∧ bop o a b = some x ∧ s'.val w = some c' ∧
      getAttr c' f = some x ∧ (∀ g, g ≠ f → getAttr c' g = getAttr c g) ∧ s'.vars = s.vars := by
  have hv : s'.vars = s.vars := funext fun v => C93_others h (by simp [Stmt.target])
  simp only [St.step, Option.bind_eq_bind, Option.bind_eq_some_iff] at h
  obtain ⟨r, hr, c, hc, a, ha, b, hb, hx⟩ := h
  have hi := C93_inplace o a b
  split at hx
  · rename_i x e
    obtain ⟨c', h1, h2, h3⟩ := write_attr hs hr hc ha (iop_cls o e) hx
    exact ⟨c, a, b, x, c', hc, ha, hb, hi.2 x e, h1, h2, h3, hv⟩
  · simp only [Option.bind_eq_some_iff] at hx
    obtain ⟨x, hx, c1, hs1, hw⟩ := hx
    obtain ⟨y, hy, hxy⟩ := get_of_set hs1
    obtain ⟨c', h1, h2, h3⟩ := write_attr hs hr hc hy hxy hw
    exact ⟨c, a, b, x, c', hc, ha, hb, hx, h1, h2, h3, hv⟩

/-! ## Programs that show that the hypotheses can be met -/

/-- `t = Twist(a, b); v = t.vel; v += v; v[0] = 7`: the change is seen in `t`. -/
example (a b : Vec) : ∃ s, St.empty.run [.make 0 (twist ⟨a, b⟩), .attr 1 0 .vel, .aug 1 .add (.var 1), .meth 1 (.setItem 0 7)] = some s ∧
    s.val 0 = some (twist ⟨⟨7, a.y + a.y, a.z + a.z⟩, b⟩) ∧ s.val 1 = some (vec ⟨7, a.y + a.y, a.z + a.z⟩) := ⟨_, rfl, rfl, rfl⟩

/-- `t = Twist(a, b); v = t.vel; v *= 2`: `t` is left alone, while `t.vel *= 2` changes it. -/
example (a b : Vec) : ∃ s, St.empty.run [.make 0 (twist ⟨a, b⟩), .attr 1 0 .vel, .aug 1 .mul (.num 2)] = some s ∧
    s.val 0 = some (twist ⟨a, b⟩) ∧ s.val 1 = some (vec ((2 : ℝ) • a)) := ⟨_, rfl, rfl, rfl⟩

example (a b : Vec) : ∃ s, St.empty.run [.make 0 (twist ⟨a, b⟩), .augAttr 0 .vel .mul (.num 2)] = some s ∧
    s.val 0 = some (twist ⟨(2 : ℝ) • a, b⟩) := ⟨_, rfl, rfl⟩

/-- `v = VectorVel(a, b); p = v` … `p += VectorVel` works in place, `p += Vector` makes a new object. -/
example (a b c : Vec) (d : VecVel) : ∃ s, St.empty.run [.make 0 (vecVel ⟨a, b⟩), .make 1 (vec c), .make 2 (vecVel d), .alias 3 0,
      .aug 3 .add (.var 2), .aug 3 .add (.var 1)] = some s ∧
    s.val 0 = some (vecVel ⟨a + d.p, b + d.v⟩) ∧ s.val 3 = some (vecVel ⟨a + d.p + c, b + d.v⟩) := ⟨_, rfl, rfl, rfl⟩

/-- A copy does not follow. -/
example (R : Rot) (p : Vec) : ∃ s, St.empty.run [.make 0 (frame ⟨R, p⟩), .copy 1 0, .attr 2 0 .p, .meth 2 .setToZero] = some s ∧
    s.val 0 = some (frame ⟨R, 0⟩) ∧ s.val 1 = some (frame ⟨R, p⟩) ∧ (∀ o ∈ [Stmt.attr 2 0 .p, .meth 2 .setToZero], o.Avoids 1) := by
  refine ⟨_, rfl, rfl, rfl, ?_⟩
  simp [Stmt.Avoids]

/-- A view through two levels of attributes. -/
example (F : FrameVel) : ∃ s, St.empty.run [.make 0 (frameVel F), .attr 1 0 .M, .attr 2 1 .w, .meth 2 .reverseSign] = some s ∧
    s.val 0 = some (frameVel ⟨⟨F.M.R, -F.M.w⟩, F.p⟩) ∧ s.val 1 = some (rotVel ⟨F.M.R, -F.M.w⟩) := ⟨_, rfl, rfl, rfl⟩

/-- The view outlives the variable of its object: `v = f.p; f = Frame()`. -/
example (F G : Frame) : ∃ s, St.empty.run [.make 0 (frame F), .attr 1 0 .p, .make 0 (frame G)] = some s ∧
    s.val 1 = some (vec F.p) ∧ s.val 0 = some (frame G) := ⟨_, rfl, rfl, rfl⟩

/-- An assignment of a value of another class raises an exception. -/
example (F : Frame) (R : Rot) : St.empty.run [.make 0 (frame F), .make 1 (rot R), .setAttr 0 .p 1] = none := rfl

/-- `f.p += VectorVel` raises: the sum is a `VectorVel`. -/
example (F : Frame) (d : VecVel) : St.empty.run [.make 0 (frame F), .make 1 (vecVel d), .augAttr 0 .p .add (.var 1)] = none := rfl

end KDL.PyView
