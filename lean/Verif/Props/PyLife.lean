import Verif.Model.PyLife
import Mathlib.Data.List.Nodup
import Mathlib.Tactic.Common

/-! # C85: lifetime of objects behind the Python bindings -/

namespace KDL.PyLife

/-- The variable that a statement assigns. -/
def Stmt.target : Stmt → Option ℕ
  | .chain v => some v
  | .segment v _ => some v
  | .getSegment v _ _ => some v
  | .solver v _ _ => some v
  | .alias v _ => some v
  | _ => none

/-- Each variable is assigned once and none is deleted: nothing that was created is given up. -/
def KeepsAll (os : List Stmt) : Prop := (os.filterMap Stmt.target).Nodup ∧ ∀ v, Stmt.del v ∉ os

/-- Every object is referred to by a variable, the variables in use are among `used`, and references lead to objects that exist. -/
structure Inv (s : St) (used : List ℕ) : Prop where
  held : ∀ x < s.next, ∃ v, s.vars v = some x
  vars : ∀ v x, s.vars v = some x → x < s.next ∧ v ∈ used
  refs : ∀ x y, y ∈ s.refs x → y < s.next

theorem Inv.empty : Inv .empty [] := by
  constructor <;> simp [St.empty, St.refs]

theorem Inv.mono {s : St} {u u' : List ℕ} (h : Inv s u) (hu : ∀ v ∈ u, v ∈ u') : Inv s u' :=
  ⟨h.held, fun v x e => ⟨(h.vars v x e).1, hu v (h.vars v x e).2⟩, h.refs⟩

theorem bind_lt {s : St} {u : List ℕ} (h : Inv s u) : ∀ (as : List Arg) (vs : List ℕ) {xs : List ℕ}, s.bind as vs = some xs →
    ∀ y ∈ xs, y < s.next := by
  intro as
  induction as with
  | nil =>
    intro vs xs e
    cases vs with
    | nil => simp [St.bind] at e; subst e; simp
    | cons => simp [St.bind] at e
  | cons a as ih =>
    intro vs xs e
    cases vs with
    | nil => simp [St.bind] at e
    | cons v vs =>
      simp only [St.bind, Option.bind_eq_bind, Option.bind_eq_some_iff] at e
      obtain ⟨x, hx, o, -, e⟩ := e
      split_ifs at e
      simp only [Option.bind_eq_some_iff, Option.some.injEq] at e
      obtain ⟨ys, hy, rfl⟩ := e
      intro y hy'
      rcases List.mem_cons.mp hy' with rfl | hy'
      · exact (h.vars v _ hx).1
      · exact ih vs hy y hy'

theorem Inv.new {s : St} {u : List ℕ} (h : Inv s u) {v : ℕ} (hv : v ∉ u) {o : Obj}
    (ho : ∀ k r, o = .solver k r → ∀ y ∈ r, y < s.next) : Inv (s.new v o) (v :: u) := by
  refine ⟨fun x hx => ?_, fun w x e => ?_, fun x y hy => ?_⟩
  · by_cases e : x = s.next
    · exact ⟨v, by simp [St.new, e]⟩
    · obtain ⟨w, hw⟩ := h.held x (by simp only [St.new] at hx; omega)
      refine ⟨w, ?_⟩
      have : w ≠ v := by rintro rfl; exact hv (h.vars w x hw).2
      simpa [St.new, this] using hw
  · simp only [St.new] at e ⊢
    split_ifs at e with c
    · simp only [Option.some.injEq] at e; subst e; exact ⟨Nat.lt_succ_self _, by simp [c]⟩
    · have := h.vars w x e
      exact ⟨by omega, List.mem_cons_of_mem _ this.2⟩
  · simp only [St.refs, St.new] at hy ⊢
    split_ifs at hy with c
    · cases o with
      | solver k r => exact Nat.lt_succ_of_lt (ho k r rfl y hy)
      | _ => simp at hy
    · exact Nat.lt_succ_of_lt (h.refs x y hy)

theorem Inv.put {s : St} {u : List ℕ} (h : Inv s u) {x : ℕ} {o : Obj} (ho : ∀ k r, o ≠ .solver k r) : Inv (s.put x o) u := by
  refine ⟨h.held, h.vars, fun z y hy => ?_⟩
  simp only [St.refs, St.put] at hy ⊢
  split_ifs at hy with c
  · cases o with
    | solver k r => exact absurd rfl (ho k r)
    | _ => simp at hy
  · exact h.refs z y hy

theorem Inv.reach {s : St} {u : List ℕ} (h : Inv s u) {x y : ℕ} (hr : s.Reach x y) (hx : x < s.next) : y < s.next := by
  induction hr with
  | refl => exact hx
  | step hy _ ih => exact ih (h.refs _ _ hy)

theorem Inv.call {s : St} {u : List ℕ} (h : Inv s u) (keep : Bool) (v : ℕ) : s.step keep (.call v) = some s := by
  simp only [St.step]
  cases e : s.vars v with
  | none => rfl
  | some x =>
    refine if_pos fun y hy => ?_
    obtain ⟨w, hw⟩ := h.held y (h.reach hy (h.vars v x e).1)
    exact ⟨w, y, hw, .inl rfl⟩

theorem Inv.step {s s' : St} {u : List ℕ} (h : Inv s u) {keep : Bool} {o : Stmt} (hd : ∀ v, o ≠ .del v)
    (ht : ∀ v, o.target = some v → v ∉ u) (e : s.step keep o = some s') : Inv s' (o.target.toList ++ u) := by
  cases o with
  | chain v =>
    simp only [St.step, Option.some.injEq] at e; subst e
    exact h.new (ht v rfl) (by simp)
  | segment v g =>
    simp only [St.step, Option.some.injEq] at e; subst e
    exact h.new (ht v rfl) (by simp)
  | addSegment v w =>
    simp only [St.step] at e
    split at e <;> (simp only [Option.some.injEq] at e; subst e)
    · exact h.put (by simp)
    · exact h
  | getSegment v w i =>
    simp only [St.step] at e
    split at e
    · split at e
      · simp only [Option.some.injEq] at e; subst e
        exact h.new (ht v rfl) (by simp)
      · simp at e
    · simp only [Option.some.injEq] at e; subst e
      exact h.mono (by simp +contextual [Stmt.target])
  | setInertia v I =>
    simp only [St.step] at e
    split at e <;> (simp only [Option.some.injEq] at e; subst e)
    · exact h.put (by simp)
    · exact h
  | solver v k args =>
    simp only [St.step] at e
    split at e <;> (simp only [Option.some.injEq] at e; subst e)
    · rename_i refs hb
      refine h.new (ht v rfl) ?_
      rintro k' r ⟨⟩
      exact bind_lt h _ _ hb
    · exact h.mono (by simp +contextual [Stmt.target])
  | «alias» v w =>
    simp only [St.step] at e
    have hv := ht v rfl
    split at e <;> (simp only [Option.some.injEq] at e; subst e)
    · rename_i x hx
      refine ⟨fun y hy => ?_, fun t y e => ?_, h.refs⟩
      · obtain ⟨t, ht'⟩ := h.held y hy
        refine ⟨t, ?_⟩
        have : t ≠ v := by rintro rfl; exact hv (h.vars t y ht').2
        simpa [this] using ht'
      · simp only at e
        split_ifs at e with c
        · simp only [Option.some.injEq] at e; subst e
          exact ⟨(h.vars w x hx).1, by simp [Stmt.target, c]⟩
        · exact ⟨(h.vars t y e).1, List.mem_append_right _ (h.vars t y e).2⟩
    · exact h.mono (by simp +contextual [Stmt.target])
  | del v => exact absurd rfl (hd v)
  | call v =>
    rw [h.call keep v, Option.some.injEq] at e
    subst e; exact h

theorem Inv.run {keep : Bool} : ∀ (os : List Stmt) {s s' : St} {u : List ℕ}, Inv s u → (∀ v, Stmt.del v ∉ os) →
    (os.filterMap Stmt.target).Nodup → (∀ v ∈ os.filterMap Stmt.target, v ∉ u) → s.run keep os = some s' → ∃ u', Inv s' u'
  | [], s, s', u, h, _, _, _, e => by
    simp only [St.run, Option.some.injEq] at e; subst e; exact ⟨u, h⟩
  | o :: os, s, s', u, h, hd, hn, hu, e => by
    simp only [St.run, Option.bind_eq_bind, Option.bind_eq_some_iff] at e
    obtain ⟨s1, e1, e2⟩ := e
    have h1 := h.step (fun v c => hd v (by simp [c])) (fun v c => hu v (by simp [c])) e1
    refine Inv.run os h1 (fun v c => hd v (List.mem_cons_of_mem _ c)) ?_ ?_ e2
    · cases ht : o.target with
      | none => simpa [ht] using hn
      | some v => simp only [List.filterMap_cons, ht, List.nodup_cons] at hn; exact hn.2
    · intro v hv hm
      rcases List.mem_append.mp hm with hm | hm
      · cases ht : o.target with
        | none => simp [ht] at hm
        | some w =>
          simp only [ht, Option.toList_some, List.mem_singleton] at hm
          simp only [List.filterMap_cons, ht, List.nodup_cons] at hn
          subst hm; exact hn.1 hv
      · refine hu v ?_ hm
        cases ht : o.target with
        | none => simpa [ht] using hv
        | some w => simp only [List.filterMap_cons, ht, List.mem_cons]; exact .inr hv

/-- **C85, partial.**  In a program that gives up no object (every variable is assigned once, none is deleted) every call on a solver
finds all objects alive that the solver refers to, directly or through other solvers.  Full statement: in every program, as long
as the solver itself lives.  Missing: an object that only a solver refers to (`C85_dropped_violated`). -/
theorem C85_calls_partial (os : List Stmt) (hk : KeepsAll os) {s : St} (e : run os = some s) (v : ℕ) :
    run (os ++ [.call v]) = some s ∧ ∀ x, s.vars v = some x → ∀ y, s.Reach x y → s.Alive false y := by
  obtain ⟨u, h⟩ := Inv.empty.run os hk.2 hk.1 (by simp) e
  have happ : ∀ (os : List Stmt) (t : St), t.run false os = some s → t.run false (os ++ [.call v]) = some s := by
    intro os
    induction os with
    | nil =>
      intro t e
      simp only [St.run, Option.some.injEq] at e
      subst e
      simp [St.run, h.call false v]
    | cons o os ih =>
      intro t e
      simp only [St.run, Option.bind_eq_bind, Option.bind_eq_some_iff, List.cons_append] at e ⊢
      obtain ⟨t1, e1, e2⟩ := e
      exact ⟨t1, e1, ih t1 e2⟩
  refine ⟨happ os _ e, fun x hx y hy => ?_⟩
  obtain ⟨w, hw⟩ := h.held y (h.reach hy (h.vars v x hx).1)
  exact ⟨w, y, hw, .inl rfl⟩

/-- With `py::keep_alive` on the arguments that a solver refers to, every call in every program would be safe. -/
theorem C85_keep_alive (s : St) (v : ℕ) : s.step true (.call v) = some s := by
  simp only [St.step]
  cases e : s.vars v with
  | none => rfl
  | some x => exact if_pos fun y hy => ⟨v, x, e, .inr ⟨rfl, hy⟩⟩

/-- A call on a solver is undefined as soon as no variable leads to an object that it refers to. -/
theorem C85_dangling (s : St) (v x y : ℕ) (hv : s.vars v = some x) (hr : s.Reach x y) (hy : ∀ w, s.vars w ≠ some y) :
    s.step false (.call v) = none := by
  simp only [St.step, hv]
  refine if_neg fun h => ?_
  obtain ⟨w, r, hw, rfl | ⟨h, -⟩⟩ := h y hr
  · exact hy w hw
  · cases h

private theorem run_call_none {os : List Stmt} {s t : St} {v x y : ℕ} (e : s.run false os = some t) (hv : t.vars v = some x)
    (hr : y ∈ t.refs x) (hy : ∀ w, t.vars w ≠ some y) : s.run false (os ++ [.call v]) = none := by
  induction os generalizing s with
  | nil =>
    simp only [St.run, Option.some.injEq] at e
    subst e
    simp [St.run, C85_dangling s v x y hv (.step hr (.refl y)) hy]
  | cons o os ih =>
    simp only [St.run, Option.bind_eq_bind, Option.bind_eq_some_iff, List.cons_append] at e ⊢
    obtain ⟨t1, e1, e2⟩ := e
    rw [e1, Option.bind_some, ih e2]

/-- **C85 fails** for every solver class that is built from a chain alone: after `c = Chain(); s = K(c)`, deleting `c` or assigning a
new chain to it leaves `s` with a chain that was destroyed. -/
theorem C85_dropped_violated (k : Cls) (hk : k.args = [.chain]) :
    run [.chain 0, .solver 1 k [0], .del 0, .call 1] = none ∧ run [.chain 0, .solver 1 k [0], .chain 0, .call 1] = none := by
  have h1 : (St.empty.new 0 (.chain Chain.empty)).bind k.args [0] = some [0] := by
    simp [hk, St.bind, St.new, St.empty, Arg.accepts]
  let t := (St.empty.new 0 (.chain Chain.empty)).new 1 (.solver k [0])
  constructor
  · refine run_call_none (os := [.chain 0, .solver 1 k [0], .del 0]) (x := 1) (y := 0)
      (t := { t with vars := fun u => if u = 0 then none else t.vars u }) ?_ ?_ ?_ ?_
    · simp [St.run, St.step, h1, t]
    · simp [t, St.new, St.empty]
    · simp [t, St.new, St.empty, St.refs]
    · intro w
      simp only [t, St.new, St.empty]
      split_ifs <;> simp
  · refine run_call_none (os := [.chain 0, .solver 1 k [0], .chain 0]) (x := 1) (y := 0) (t := t.new 0 (.chain Chain.empty)) ?_ ?_ ?_ ?_
    · simp [St.run, St.step, h1, t]
    · simp [t, St.new, St.empty]
    · simp [t, St.new, St.empty, St.refs]
    · intro w
      simp only [t, St.new, St.empty]
      split_ifs <;> simp

/-- **C85 fails** for the Newton-Raphson solvers even while the chain is kept: they also refer to the solvers they were given, so
`ChainIkSolverPos_NR(c, ChainFkSolverPos_recursive(c), v)` with a temporary is undefined when it is called. -/
theorem C85_subsolver_violated (k : Cls) (hk : k.args = [.chain, .fkPos, .ikVel]) (fk ik : Cls) (hf : fk.isFkPos = true) (hi : ik.isIkVel = true)
    (hfa : fk.args = [.chain]) (hia : ik.args = [.chain]) (d : ℕ) (hd : d = 1 ∨ d = 2) :
    run [.chain 0, .solver 1 fk [0], .solver 2 ik [0], .solver 3 k [0, 1, 2], .del d, .call 3] = none := by
  let s1 := St.empty.new 0 (.chain Chain.empty)
  let s2 := s1.new 1 (.solver fk [0])
  let s3 := s2.new 2 (.solver ik [0])
  let t := s3.new 3 (.solver k [0, 1, 2])
  have h1 : s1.bind fk.args [0] = some [0] := by
    simp [hfa, St.bind, s1, St.new, St.empty, Arg.accepts]
  have h2 : s2.bind ik.args [0] = some [0] := by
    simp [hia, St.bind, s1, s2, St.new, St.empty, Arg.accepts]
  have h3 : s3.bind k.args [0, 1, 2] = some [0, 1, 2] := by
    simp [hk, St.bind, s1, s2, s3, St.new, St.empty, Arg.accepts, hf, hi]
  refine run_call_none (os := [.chain 0, .solver 1 fk [0], .solver 2 ik [0], .solver 3 k [0, 1, 2], .del d]) (x := 3) (y := d)
      (t := { t with vars := fun u => if u = d then none else t.vars u }) ?_ ?_ ?_ ?_
  · simp only [St.run, Option.bind_eq_bind]
    rw [show St.empty.step false (.chain 0) = some s1 from rfl, Option.bind_some,
      show s1.step false (.solver 1 fk [0]) = some s2 by simp only [St.step, h1, s2], Option.bind_some,
      show s2.step false (.solver 2 ik [0]) = some s3 by simp only [St.step, h2, s3], Option.bind_some,
      show s3.step false (.solver 3 k [0, 1, 2]) = some t by simp only [St.step, h3, t], Option.bind_some]
    rfl
  · rcases hd with rfl | rfl <;> simp [t, s3, s2, s1, St.new, St.empty]
  · rcases hd with rfl | rfl <;> simp [t, s3, s2, s1, St.new, St.empty, St.refs]
  · intro w
    rcases hd with rfl | rfl <;> simp only [t, s3, s2, s1, St.new, St.empty] <;> split_ifs <;> simp_all

/-- Every class takes a chain alone, or a chain and two solvers. -/
theorem C85_classes (k : Cls) : k.args = [.chain] ∨ k.args = [.chain, .fkPos, .ikVel] := by
  cases k <;> simp [Cls.args]

/-- A constructor takes an object for an argument exactly if it is a chain where a chain is asked for, a position solver where one of
these is asked for, and one of the four velocity solvers where one of these is asked for. -/
theorem C85_argument_types (a : Arg) (o : Obj) : a.accepts o = true ↔
    (a = .chain ∧ ∃ c : Chain, o = .chain c) ∨
    (a = .fkPos ∧ ∃ r : List ℕ, o = .solver .ChainFkSolverPos_recursive r) ∨
    (a = .ikVel ∧ ∃ k ∈ [Cls.ChainIkSolverVel_pinv, .ChainIkSolverVel_wdls, .ChainIkSolverVel_pinv_nso, .ChainIkSolverVel_pinv_givens],
      ∃ r : List ℕ, o = .solver k r) := by
  cases a <;> rcases o with c | g | ⟨k, r⟩ <;> try cases k
  all_goals simp [Arg.accepts, Cls.isFkPos, Cls.isIkVel]

/-- A constructor call with an object that is not of the type asked for, or with another number of arguments, raises an exception: no
object is made and the variable keeps what it had. -/
theorem C85_refused {keep : Bool} (s : St) (v : ℕ) (k : Cls) (ws : List ℕ)
    (h : ws.length ≠ k.args.length ∨ ∃ (i : ℕ) (a : Arg) (w : ℕ), k.args[i]? = some a ∧ ws[i]? = some w ∧
      ∀ o : Obj, s.obj w = some o → a.accepts o = false) : s.step keep (.solver v k ws) = some s := by
  have key : ∀ (as : List Arg) (ws xs : List ℕ), s.bind as ws = some xs → ws.length = as.length ∧
      ∀ (i : ℕ) (a : Arg) (w : ℕ), as[i]? = some a → ws[i]? = some w → ∃ o : Obj, s.obj w = some o ∧ a.accepts o = true := by
    intro as
    induction as with
    | nil =>
      intro ws xs e
      cases ws with
      | nil => exact ⟨rfl, fun i a w hi => by simp at hi⟩
      | cons w ws => simp [St.bind] at e
    | cons a as ih =>
      intro ws xs e
      cases ws with
      | nil => simp [St.bind] at e
      | cons w ws =>
        simp only [St.bind, Option.bind_eq_bind, Option.bind_eq_some_iff] at e
        obtain ⟨x, hx, o, ho, e⟩ := e
        by_cases ha : a.accepts o = true
        · rw [if_pos ha, Option.bind_eq_some_iff] at e
          obtain ⟨ys, hy, -⟩ := e
          obtain ⟨hl, hi⟩ := ih ws ys hy
          refine ⟨by simp [hl], fun i b u hb hu => ?_⟩
          cases i with
          | zero =>
            simp only [List.getElem?_cons_zero, Option.some.injEq] at hb hu
            subst hb hu
            exact ⟨o, by simp [St.obj, hx, ho], ha⟩
          | succ i => exact hi i b u (by simpa using hb) (by simpa using hu)
        · rw [if_neg ha] at e
          exact absurd e (by simp)
  have hn : s.bind k.args ws = none := by
    cases e : s.bind k.args ws with
    | none => rfl
    | some xs =>
      obtain ⟨hl, hi⟩ := key _ _ _ e
      rcases h with h | ⟨i, a, w, ha, hw, hr⟩
      · exact absurd hl h
      · obtain ⟨o, ho, hA⟩ := hi i a w ha hw
        rw [hr o ho] at hA
        exact absurd hA (by simp)
  simp only [St.step, hn]

/-- Non-vacuity of `C85_refused`: a velocity solver in the place of the position solver. -/
example : ∃ s, run [.chain 0, .solver 1 .ChainIkSolverVel_pinv [0], .solver 2 .ChainIkSolverPos_NR [0, 1, 1]] = some s ∧ s.vars 2 = none :=
  ⟨_, rfl, rfl⟩

/-- **C85 fails** for the segments of a chain: the Python method returns a copy where the C++ method returns a reference, so changing
what it returned leaves the chain as it was. -/
theorem C85_getSegment_violated (g : Segment) (I : RBI) : ∃ s,
    run [.segment 0 g, .chain 1, .addSegment 1 0, .getSegment 2 1 0, .setInertia 2 I] = some s ∧
    s.obj 2 = some (.segment { g with I := I }) ∧ s.obj 1 = some (.chain (Chain.empty.addSegment g)) := by
  have hg : (Chain.empty.addSegment g).getSegment 0 = some g := by
    simp [Chain.empty, Chain.addSegment, Chain.getSegment]
  let s1 := St.empty.new 0 (.segment g)
  let s2 := s1.new 1 (.chain Chain.empty)
  let s3 := s2.put 1 (.chain (Chain.empty.addSegment g))
  let s4 := s3.new 2 (.segment g)
  refine ⟨s4.put 2 (.segment { g with I := I }), ?_, ?_, ?_⟩
  · simp only [run, St.run, Option.bind_eq_bind]
    rw [show St.empty.step false (.segment 0 g) = some s1 from rfl, Option.bind_some,
      show s1.step false (.chain 1) = some s2 from rfl, Option.bind_some,
      show s2.step false (.addSegment 1 0) = some s3 from rfl, Option.bind_some,
      show s3.step false (.getSegment 2 1 0) = some s4 by
        simp only [St.step, show s3.obj 1 = some (.chain (Chain.empty.addSegment g)) from rfl, hg, s4], Option.bind_some]
    rfl
  · rfl
  · rfl

/-- A solver works on the chain object itself: what any variable does to it afterwards is seen through the solver, and nothing else
changes. -/
theorem C85_shared {keep : Bool} (s : St) {v w x : ℕ} {c : Chain} {g : Segment} (hv : s.vars v = some x)
    (hc : s.objs x = some (.chain c)) (hw : s.obj w = some (.segment g)) :
    ∃ s', s.step keep (.addSegment v w) = some s' ∧ s'.objs x = some (.chain (c.addSegment g)) ∧
      (∀ z, z ≠ x → s'.objs z = s.objs z) ∧ s'.vars = s.vars := by
  have ho : s.obj v = some (.chain c) := by simp [St.obj, hv, hc]
  refine ⟨s.put x (.chain (c.addSegment g)), by simp only [St.step, hv, ho, hw], ?_, fun z hz => ?_, rfl⟩
  · simp [St.put]
  · simp [St.put, hz]

/-- A solver made from variables refers to the objects of these variables. -/
theorem C85_refers {keep : Bool} (s s' : St) {v w x : ℕ} {k : Cls} {c : Chain} (hk : k.args = [.chain]) (hw : s.vars w = some x)
    (hx : s.objs x = some (.chain c)) (e : s.step keep (.solver v k [w]) = some s') :
    ∃ y, s'.vars v = some y ∧ s'.refs y = [x] := by
  have hb : s.bind k.args [w] = some [x] := by simp [hk, St.bind, hw, hx, Arg.accepts]
  simp only [St.step, hb, Option.some.injEq] at e
  subst e
  exact ⟨s.next, by simp [St.new], by simp [St.refs, St.new]⟩

/-- Non-vacuity of `C85_calls_partial`: a program that keeps its chain and its solvers. -/
example : ∃ s, run [.chain 0, .solver 1 .ChainFkSolverPos_recursive [0], .solver 2 .ChainIkSolverVel_pinv [0],
      .solver 3 .ChainIkSolverPos_NR [0, 1, 2]] = some s ∧
    KeepsAll [.chain 0, .solver 1 .ChainFkSolverPos_recursive [0], .solver 2 .ChainIkSolverVel_pinv [0],
      .solver 3 .ChainIkSolverPos_NR [0, 1, 2]] ∧ s.vars 3 = some 3 ∧ s.refs 3 = [0, 1, 2] := by
  refine ⟨_, rfl, ?_, rfl, rfl⟩
  simp [KeepsAll, Stmt.target]

/-- Non-vacuity of `C85_shared` and `C85_refers`. -/
example (g : Segment) : ∃ s, run [.chain 0, .solver 1 .ChainDynParam [0], .segment 2 g, .addSegment 0 2] = some s ∧
    s.refs 1 = [0] ∧ ∃ c, s.objs 0 = some (.chain c) ∧ c.segments.length = 1 := by
  refine ⟨_, rfl, rfl, _, rfl, ?_⟩
  simp [Chain.addSegment, Chain.empty]

end KDL.PyLife
