import Verif.Model.Tree
import Verif.Lemmas.Chain

/-! Facts about trees. -/

noncomputable section
namespace KDL
namespace Tree

/-- Names in insertion order. -/
def names (t : Tree) : List String := t.segments.map TreeElem.name

/-- Class invariant of trees built by the public interface. -/
structure WF (t : Tree) : Prop where
  nodup : t.names.Nodup
  root : ∃ r, t.segments[0]? = some r ∧ r.segment = Segment.ofName t.root_name ∧ r.parent = none ∧ r.q_nr = 0
  nseg : t.segments.length = t.nrOfSegments + 1
  numbering : (t.segments.filter TreeElem.moving).map TreeElem.q_nr = List.range t.nrOfJoints
  fixed : ∀ e ∈ t.segments, e.moving = false → e.q_nr = 0
  parents : ∀ i e, t.segments[i]? = some e → i ≠ 0 → ∃ j p, j < i ∧ t.segments[j]? = some p ∧ e.parent = some p.name
  children : ∀ e ∈ t.segments, e.children = (t.segments.filter fun x => x.parent = some e.name).map TreeElem.name

theorem find_some {t : Tree} {n : String} {e : TreeElem} (h : t.find n = some e) : e ∈ t.segments ∧ e.name = n := by
  unfold find at h
  exact ⟨List.mem_of_find?_eq_some h, by simpa using List.find?_some h⟩

theorem find_none {t : Tree} {n : String} : t.find n = none ↔ n ∉ t.names := by
  unfold find names
  rw [List.find?_eq_none]
  simp

theorem find_of_mem {t : Tree} (hn : t.names.Nodup) {e : TreeElem} (he : e ∈ t.segments) : t.find e.name = some e := by
  cases h : t.find e.name with
  | none => rw [find_none] at h; exact absurd (List.mem_map_of_mem he) h
  | some e' =>
    obtain ⟨h1, h2⟩ := find_some h
    rw [List.inj_on_of_nodup_map hn h1 he h2]

theorem mem_names {t : Tree} {n : String} : n ∈ t.names ↔ ∃ e, t.find n = some e := by
  constructor
  · intro h
    cases h' : t.find n with
    | none => rw [find_none] at h'; exact absurd h h'
    | some e => exact ⟨e, rfl⟩
  · rintro ⟨e, he⟩
    by_contra h
    rw [← find_none] at h
    rw [h] at he; cases he

theorem wf_new (r : String) : (new r).WF := by
  refine ⟨by simp [names, new], ⟨_, rfl, rfl, rfl, rfl⟩, rfl, ?_, ?_, ?_, ?_⟩
  · simp [new, TreeElem.moving, Segment.ofName, Segment.moving, Joint.moving]
  · intro e he _; simp [new] at he; subst he; rfl
  · intro i e h hi
    simp only [new] at h
    cases i with
    | zero => exact absurd rfl hi
    | succ i => simp at h
  · intro e he; simp [new] at he; subst he; simp [new]

/-- Element as seen after attaching a child to `hook`. -/
def grow (hook s : String) (e : TreeElem) : TreeElem :=
  if e.name = hook then { e with children := e.children ++ [s] } else e
@[simp] theorem grow_name (hook s : String) (e : TreeElem) : (grow hook s e).name = e.name := by
  unfold grow; split_ifs <;> rfl
@[simp] theorem grow_moving (hook s : String) (e : TreeElem) : (grow hook s e).moving = e.moving := by
  unfold grow; split_ifs <;> rfl
@[simp] theorem grow_segment (hook s : String) (e : TreeElem) : (grow hook s e).segment = e.segment := by
  unfold grow; split_ifs <;> rfl
@[simp] theorem grow_q_nr (hook s : String) (e : TreeElem) : (grow hook s e).q_nr = e.q_nr := by
  unfold grow; split_ifs <;> rfl
@[simp] theorem grow_parent (hook s : String) (e : TreeElem) : (grow hook s e).parent = e.parent := by
  unfold grow; split_ifs <;> rfl
theorem attach_eq (l : List TreeElem) (s : Segment) (hook : String) (q : ℕ) :
    attach l s hook q = l.map (grow hook s.name) ++ [⟨s, q, some hook, []⟩] := rfl

/-- Complete description of `addSegment`. -/
theorem addSegment_cases (t : Tree) (s : Segment) (hook : String) :
    (hook ∉ t.names ∨ s.name ∈ t.names) ∧ t.addSegment s hook = (false, t) ∨
    (hook ∈ t.names ∧ s.name ∉ t.names) ∧ t.addSegment s hook =
      (true, ⟨attach t.segments s hook (if s.moving then t.nrOfJoints else 0),
        if s.moving then t.nrOfJoints + 1 else t.nrOfJoints, t.nrOfSegments + 1, t.root_name⟩) := by
  unfold addSegment
  cases h1 : t.find hook with
  | none => left; exact ⟨Or.inl (find_none.mp h1), rfl⟩
  | some e =>
    cases h2 : t.find s.name with
    | some e' => left; exact ⟨Or.inr (mem_names.mpr ⟨_, h2⟩), rfl⟩
    | none => right; exact ⟨⟨mem_names.mpr ⟨_, h1⟩, find_none.mp h2⟩, rfl⟩

theorem filter_map_grow (l : List TreeElem) (hook s : String) (p : TreeElem → Bool)
    (hp : ∀ e, p (grow hook s e) = p e) : (l.map (grow hook s)).filter p = (l.filter p).map (grow hook s) := by
  rw [List.filter_map]
  congr 1
  apply List.filter_congr
  intro e _; simp [hp]

theorem wf_addSegment {t : Tree} (ht : t.WF) (s : Segment) (hook : String) : (t.addSegment s hook).2.WF := by
  rcases addSegment_cases t s hook with ⟨_, h⟩ | ⟨⟨hhook, hnew⟩, h⟩
  · rw [h]; exact ht
  rw [h]
  have hlen : (t.segments.map (grow hook s.name)).length = t.segments.length := by simp
  have hnames : ((t.segments.map (grow hook s.name)).map TreeElem.name) = t.names := by
    simp [names, Function.comp_def]
  refine ⟨?_, ?_, ?_, ?_, ?_, ?_, ?_⟩
  · simp only [names, attach_eq, List.map_append, List.map_cons, List.map_nil]
    rw [hnames, List.nodup_append]
    refine ⟨ht.nodup, by simp, ?_⟩
    intro a ha b hb
    simp at hb
    rintro rfl
    subst hb
    exact hnew ha
  · obtain ⟨r, h1, h2, h3, h4⟩ := ht.root
    refine ⟨grow hook s.name r, ?_, by simpa using h2, by simpa using h3, by simpa using h4⟩
    have : 0 < t.segments.length := by rw [ht.nseg]; omega
    simp only [attach_eq]
    rw [List.getElem?_append_left (by simpa using this), List.getElem?_map, h1]; rfl
  · simp [attach_eq, ht.nseg]
  · simp only [attach_eq, List.filter_append, List.map_append]
    rw [filter_map_grow _ _ _ _ (by simp), List.map_map]
    have : (TreeElem.q_nr ∘ grow hook s.name) = TreeElem.q_nr := by funext e; simp
    rw [this, ht.numbering]
    by_cases hm : s.moving
    · simp [List.filter_cons, TreeElem.moving, hm, List.range_succ]
    · simp [List.filter_cons, TreeElem.moving, hm]
  · intro e he hm
    simp only [attach_eq, List.mem_append, List.mem_map, List.mem_singleton] at he
    rcases he with ⟨e', he', rfl⟩ | rfl
    · simpa using ht.fixed e' he' (by simpa using hm)
    · have hm' : s.moving = false := hm
      simp [hm']
  · intro i e he hi
    simp only [attach_eq] at he ⊢
    by_cases hlt : i < t.segments.length
    · rw [List.getElem?_append_left (by simpa using hlt), List.getElem?_map, List.getElem?_eq_getElem hlt] at he
      simp only [Option.map_some, Option.some.injEq] at he
      obtain ⟨j, p, h1, h2, h3⟩ := ht.parents i _ (List.getElem?_eq_getElem hlt) hi
      refine ⟨j, grow hook s.name p, h1, ?_, ?_⟩
      · rw [List.getElem?_append_left (by simp; omega), List.getElem?_map, h2]; rfl
      · rw [← he]; simpa using h3
    · have hi' : i = t.segments.length := by
        have hl := (List.getElem?_eq_some_iff.mp he).1
        simp at hl; omega
      subst hi'
      rw [List.getElem?_append_right (by simp)] at he
      simp at he
      obtain ⟨p, hp⟩ := mem_names.mp hhook
      obtain ⟨hp1, hp2⟩ := find_some hp
      obtain ⟨j, hj, hpj⟩ := List.getElem_of_mem hp1
      refine ⟨j, grow hook s.name p, hj, ?_, ?_⟩
      · rw [List.getElem?_append_left (by simpa using hj), List.getElem?_map, List.getElem?_eq_getElem hj, hpj]; rfl
      · rw [← he]; simp [hp2]
  · intro e he
    simp only [attach_eq, List.filter_append, List.map_append]
    rw [filter_map_grow _ _ _ _ (by simp), List.map_map]
    have hcomp : (TreeElem.name ∘ grow hook s.name) = TreeElem.name := by funext e; simp
    rw [hcomp]
    simp only [attach_eq, List.mem_append, List.mem_map, List.mem_singleton] at he
    rcases he with ⟨e', he', rfl⟩ | rfl
    · have hch := ht.children e' he'
      simp only [grow_name]
      by_cases hh : e'.name = hook
      · rw [← hch]
        simp only [grow, hh, if_true]
        simp [List.filter_cons]
        rfl
      · have hh' : ¬ hook = e'.name := fun h => hh h.symm
        rw [← hch]
        simp [grow, hh, hh', List.filter_cons]
    · have h0 : ∀ x ∈ t.segments, ¬ x.parent = some s.name := by
        intro x hx hpx
        obtain ⟨i, hi, hxi⟩ := List.getElem_of_mem hx
        have hget : t.segments[i]? = some x := by rw [List.getElem?_eq_getElem hi, hxi]
        by_cases hi0 : i = 0
        · obtain ⟨r, h1, _, h3, _⟩ := ht.root
          subst hi0
          rw [hget] at h1; cases h1
          rw [h3] at hpx; cases hpx
        · obtain ⟨j, p, _, h2, h3⟩ := ht.parents i x hget hi0
          rw [h3] at hpx
          simp only [Option.some.injEq] at hpx
          apply hnew
          rw [← hpx]
          exact List.mem_map_of_mem (List.mem_of_getElem? h2)
      have hne : ¬ hook = s.name := fun h => hnew (h ▸ hhook)
      have hf : t.segments.filter (fun x => decide (x.parent = some s.name)) = [] := by
        rw [List.filter_eq_nil_iff]; intro x hx; simpa using h0 x hx
      have hname : (⟨s, if s.moving then t.nrOfJoints else 0, some hook, []⟩ : TreeElem).name = s.name := rfl
      rw [hname, hf]
      simp [List.filter_cons, hne]

/-- Trees obtained through the public interface (growing one object). -/
inductive Reach : Tree → Prop
  | new (r : String) : Reach (new r)
  | add {t : Tree} (s : Segment) (hook : String) : Reach t → Reach (t.addSegment s hook).2

theorem Reach.wf {t : Tree} (h : t.Reach) : t.WF := by
  induction h with
  | new r => exact wf_new r
  | add s hook _ ih => exact wf_addSegment ih s hook

theorem Reach.addChain {t : Tree} (h : t.Reach) (ss : List Segment) (hook : String) : (t.addChain ss hook).2.Reach := by
  induction ss generalizing t hook with
  | nil => exact h
  | cons s ss ih =>
    have h1 : (t.addSegment s hook).2.Reach := .add s hook h
    unfold Tree.addChain
    generalize t.addSegment s hook = r at h1
    obtain ⟨b, t1⟩ := r
    cases b
    · exact h1
    · exact ih h1 _

/-! ### Depth-first traversal -/

/-- Children list of a name. -/
def childrenOf (t : Tree) (n : String) : List String :=
  match t.find n with
  | some e => e.children
  | none => []
/-- Names in depth-first order. -/
def dfs (t : Tree) : ℕ → List String → List String
  | 0, _ => []
  | fuel + 1, cs => cs.flatMap fun c => c :: dfs t fuel (childrenOf t c)
/-- The same with the parent of each. -/
def dfsP (t : Tree) : ℕ → List String → String → List (String × String)
  | 0, _, _ => []
  | fuel + 1, cs, hook => cs.flatMap fun c => (c, hook) :: dfsP t fuel (childrenOf t c) c

theorem dfsP_fst (t : Tree) : ∀ (fuel : ℕ) (cs : List String) (hook : String),
    (dfsP t fuel cs hook).map Prod.fst = dfs t fuel cs := by
  intro fuel
  induction fuel with
  | zero => intro cs hook; rfl
  | succ fuel ih =>
    intro cs hook
    simp only [dfsP, dfs, List.map_flatMap, List.map_cons, ih]

theorem dfs_append (t : Tree) (fuel : ℕ) (a b : List String) : dfs t fuel (a ++ b) = dfs t fuel a ++ dfs t fuel b := by
  cases fuel with
  | zero => rfl
  | succ fuel => simp [dfs]

/-- Every name in `cs` is a segment inserted at position `k` or later. -/
def Above (t : Tree) (k : ℕ) (cs : List String) : Prop :=
  ∀ c ∈ cs, ∃ i e, t.segments[i]? = some e ∧ e.name = c ∧ k ≤ i

theorem index_unique {t : Tree} (hn : t.names.Nodup) {i j : ℕ} {a b : TreeElem} (hi : t.segments[i]? = some a)
    (hj : t.segments[j]? = some b) (h : a.name = b.name) : i = j := by
  obtain ⟨h1, h2⟩ := List.getElem?_eq_some_iff.mp hi
  obtain ⟨h3, h4⟩ := List.getElem?_eq_some_iff.mp hj
  have := (List.nodup_iff_injective_get.mp hn) (a₁ := ⟨i, by simpa [names] using h1⟩) (a₂ := ⟨j, by simpa [names] using h3⟩)
    (by simp [names, h2, h4, h])
  simpa using this

theorem find_of_get {t : Tree} (hn : t.names.Nodup) {i : ℕ} {e : TreeElem} (hi : t.segments[i]? = some e) :
    t.find e.name = some e := find_of_mem hn (List.mem_of_getElem? hi)

theorem parent_of_child {t : Tree} (ht : t.WF) {e x : TreeElem} (he : e ∈ t.segments) (hx : x ∈ t.segments) :
    x.name ∈ e.children ↔ x.parent = some e.name := by
  rw [ht.children e he]
  simp only [List.mem_map, List.mem_filter, decide_eq_true_eq]
  constructor
  · rintro ⟨y, ⟨hy, hp⟩, hyx⟩
    rw [← List.inj_on_of_nodup_map ht.nodup hy hx hyx]; exact hp
  · intro h; exact ⟨x, ⟨hx, h⟩, rfl⟩

theorem above_children {t : Tree} (ht : t.WF) {i : ℕ} {e : TreeElem} (hi : t.segments[i]? = some e) :
    Above t (i + 1) e.children := by
  intro c hc
  have he := List.mem_of_getElem? hi
  rw [ht.children e he] at hc
  simp only [List.mem_map, List.mem_filter, decide_eq_true_eq] at hc
  obtain ⟨x, ⟨hx, hp⟩, rfl⟩ := hc
  obtain ⟨k, hk, hkx⟩ := List.getElem_of_mem hx
  have hget : t.segments[k]? = some x := by rw [List.getElem?_eq_getElem hk, hkx]
  refine ⟨k, x, hget, rfl, ?_⟩
  by_cases hk0 : k = 0
  · obtain ⟨r, h1, _, h3, _⟩ := ht.root
    subst hk0
    rw [hget] at h1; cases h1
    rw [h3] at hp; cases hp
  · obtain ⟨j, p, h1, h2, h3⟩ := ht.parents k x hget hk0
    rw [h3] at hp
    simp only [Option.some.injEq] at hp
    have := index_unique ht.nodup h2 hi hp
    omega

theorem Above.mono {t : Tree} {k l : ℕ} {cs : List String} (h : Above t k cs) (hl : l ≤ k) : Above t l cs := by
  intro c hc
  obtain ⟨i, e, h1, h2, h3⟩ := h c hc
  exact ⟨i, e, h1, h2, by omega⟩

theorem Above.children {t : Tree} (ht : t.WF) {k : ℕ} {cs : List String} (h : Above t k cs) {c : String} (hc : c ∈ cs) :
    Above t (k + 1) (childrenOf t c) := by
  obtain ⟨i, e, h1, h2, h3⟩ := h c hc
  have := above_children ht h1
  unfold childrenOf
  rw [← h2, find_of_get ht.nodup h1]
  exact this.mono (by omega)

theorem Above.lt {t : Tree} {k : ℕ} {cs : List String} (h : Above t k cs) {c : String} (hc : c ∈ cs) :
    k < t.segments.length := by
  obtain ⟨i, e, h1, _, h3⟩ := h c hc
  have := (List.getElem?_eq_some_iff.mp h1).1
  omega

theorem dfs_stable {t : Tree} (ht : t.WF) : ∀ (fuel k : ℕ) (cs : List String), Above t k cs →
    t.segments.length ≤ fuel + k → dfs t (fuel + 1) cs = dfs t fuel cs := by
  intro fuel
  induction fuel with
  | zero =>
    intro k cs h hN
    have : cs = [] := by
      by_contra hne
      obtain ⟨c, hc⟩ := List.exists_mem_of_ne_nil cs hne
      have := h.lt hc
      omega
    subst this; rfl
  | succ fuel ih =>
    intro k cs h hN
    conv_lhs => unfold dfs
    conv_rhs => unfold dfs
    apply List.flatMap_congr
    intro c hc
    rw [ih (k + 1) _ (h.children ht hc) (by omega)]

/-- Attaching a leaf inserts exactly one new name into the traversal for each occurrence of its parent. -/
theorem dfs_attach {t t' : Tree} (ht : t.WF) (hook new : String) (hnew : new ∉ t.names)
    (hch : ∀ n ∈ t.names, childrenOf t' n = childrenOf t n ++ (if n = hook then [new] else []))
    (hnc : childrenOf t' new = []) : ∀ (fuel k : ℕ) (cs : List String), Above t k cs →
    t.segments.length + 1 ≤ fuel + k →
    (dfs t' fuel cs).Perm (dfs t fuel cs ++ List.replicate ((dfs t fuel cs).count hook) new) := by
  intro fuel
  induction fuel with
  | zero => intro k cs _ _; simp [dfs]
  | succ fuel ih =>
    intro k cs h hN
    have hblock : ∀ c ∈ cs, (c :: dfs t' fuel (childrenOf t' c)).Perm ((c :: dfs t fuel (childrenOf t c)) ++
        List.replicate ((c :: dfs t fuel (childrenOf t c)).count hook) new) := by
      intro c hc
      have hcn : c ∈ t.names := by
        obtain ⟨i, e, h1, h2, _⟩ := h c hc
        rw [← h2]; exact List.mem_map_of_mem (List.mem_of_getElem? h1)
      have hIH := ih (k + 1) _ (h.children ht hc) (by omega)
      have hlt := h.lt hc
      rw [hch c hcn, dfs_append, List.cons_append, List.count_cons]
      refine List.Perm.cons c ?_
      by_cases hh : c = hook
      · have : dfs t' fuel [new] = [new] := by
          obtain ⟨f, rfl⟩ : ∃ f, fuel = f + 1 := ⟨fuel - 1, by omega⟩
          have h0 : dfs t' f [] = [] := by cases f <;> rfl
          simp [dfs, hnc, h0]
        rw [if_pos hh, this]
        have hb : (c == hook) = true := by simpa using hh
        rw [hb, if_pos rfl, List.replicate_add, ← List.append_assoc]
        exact List.Perm.append hIH (List.Perm.refl _)
      · have hb : (c == hook) = false := by simpa using hh
        rw [if_neg hh, hb, if_neg (by simp)]
        have h0 : dfs t' fuel [] = [] := by cases fuel <;> rfl
        rw [h0]
        simpa using hIH
    simp only [dfs]
    clear h
    induction cs with
    | nil => simp
    | cons c cs ihc =>
      simp only [List.flatMap_cons]
      rw [List.count_append, List.replicate_add]
      have h1 := hblock c (by simp)
      have h2 := ihc (fun x hx => hblock x (by simp [hx]))
      refine (List.Perm.append h1 h2).trans ?_
      simp only [List.append_assoc]
      refine List.Perm.append_left _ ?_
      rw [← List.append_assoc, ← List.append_assoc]
      exact List.Perm.append_right _ List.perm_append_comm

theorem childrenOf_addSegment {t : Tree} (ht : t.WF) (s : Segment) (hook : String)
    (hhook : hook ∈ t.names) (hnew : s.name ∉ t.names) :
    (∀ n ∈ t.names, childrenOf (t.addSegment s hook).2 n = childrenOf t n ++ (if n = hook then [s.name] else [])) ∧
    childrenOf (t.addSegment s hook).2 s.name = [] := by
  have hwf := wf_addSegment ht s hook
  rcases addSegment_cases t s hook with ⟨h | h, _⟩ | ⟨_, h⟩
  · exact absurd hhook h
  · exact absurd h hnew
  rw [h] at hwf ⊢
  constructor
  · intro n hn
    obtain ⟨e, he⟩ := mem_names.mp hn
    obtain ⟨h1, h2⟩ := find_some he
    have hm : grow hook s.name e ∈ attach t.segments s hook (if s.moving then t.nrOfJoints else 0) := by
      rw [attach_eq]; exact List.mem_append_left _ (List.mem_map_of_mem h1)
    have hf := find_of_mem hwf.nodup hm
    rw [grow_name, h2] at hf
    unfold childrenOf
    rw [hf, he]
    simp only [grow, h2]
    split_ifs <;> simp
  · have hm : (⟨s, if s.moving then t.nrOfJoints else 0, some hook, []⟩ : TreeElem) ∈
        attach t.segments s hook (if s.moving then t.nrOfJoints else 0) := by
      rw [attach_eq]; simp
    have hf := find_of_mem hwf.nodup hm
    unfold childrenOf
    rw [show (⟨s, if s.moving then t.nrOfJoints else 0, some hook, []⟩ : TreeElem).name = s.name from rfl] at hf
    rw [hf]

theorem names_addSegment (t : Tree) (s : Segment) (hook : String) (hhook : hook ∈ t.names) (hnew : s.name ∉ t.names) :
    (t.addSegment s hook).2.names = t.names ++ [s.name] ∧ (t.addSegment s hook).2.root_name = t.root_name ∧
    (t.addSegment s hook).1 = true := by
  rcases addSegment_cases t s hook with ⟨h | h, _⟩ | ⟨_, h⟩
  · exact absurd hhook h
  · exact absurd h hnew
  rw [h]
  refine ⟨?_, rfl, rfl⟩
  simp [names, attach_eq, Function.comp_def]
  rfl

theorem root_cons {t : Tree} (ht : t.WF) : ∃ r rest, t.segments = r :: rest ∧ r.name = t.root_name ∧
    t.find t.root_name = some r ∧ t.names = t.root_name :: rest.map TreeElem.name := by
  obtain ⟨r, h1, h2, _, _⟩ := ht.root
  have hname : r.name = t.root_name := by show r.segment.name = _; rw [h2]; rfl
  cases hs : t.segments with
  | nil => rw [hs] at h1; cases h1
  | cons a rest =>
    rw [hs] at h1
    simp at h1; subst h1
    refine ⟨a, rest, rfl, hname, ?_, ?_⟩
    · rw [← hname]; exact find_of_mem ht.nodup (by rw [hs]; simp)
    · simp [names, hs, hname]

theorem above_root {t : Tree} (ht : t.WF) : Above t 1 (childrenOf t t.root_name) := by
  obtain ⟨r, h1, h2, _, _⟩ := ht.root
  have hname : r.name = t.root_name := by show r.segment.name = _; rw [h2]; rfl
  have := above_children ht h1
  unfold childrenOf
  rw [← hname, find_of_get ht.nodup h1]
  exact this

/-- The traversal from the root meets every other segment exactly once. -/
theorem Reach.dfs_perm {t : Tree} (h : t.Reach) :
    (t.root_name :: dfs t t.segments.length (childrenOf t t.root_name)).Perm t.names := by
  induction h with
  | new r =>
    have : childrenOf (Tree.new r) (Tree.new r).root_name = [] := by
      simp [childrenOf, Tree.new, find, TreeElem.name, Segment.ofName]
    rw [this]
    simp [dfs, names, Tree.new, TreeElem.name, Segment.ofName]
  | @add t s hook hr ih =>
    rcases addSegment_cases t s hook with ⟨_, h⟩ | ⟨⟨hhook, hnew⟩, h⟩
    · rw [h]; exact ih
    have ht := hr.wf
    obtain ⟨hc1, hc2⟩ := childrenOf_addSegment ht s hook hhook hnew
    obtain ⟨hn1, hn2, _⟩ := names_addSegment t s hook hhook hnew
    have hlen : (t.addSegment s hook).2.segments.length = t.segments.length + 1 := by
      rw [h]; simp [attach_eq]
    generalize (t.addSegment s hook).2 = t' at *
    have hroot : t.root_name ∈ t.names := by
      obtain ⟨r, rest, _, _, _, h5⟩ := root_cons ht
      rw [h5]; simp
    rw [hn2, hlen, hn1, hc1 _ hroot, dfs_append]
    have hA := above_root ht
    have hp := dfs_attach (t' := t') ht hook s.name hnew hc1 hc2 (t.segments.length + 1) 1 _ hA (by omega)
    rw [dfs_stable ht _ 1 _ hA (by omega)] at hp
    have hnd : (t.root_name :: dfs t t.segments.length (childrenOf t t.root_name)).Nodup :=
      ih.nodup_iff.mpr ht.nodup
    have hcount := ih.count_eq hook
    rw [List.count_eq_one_of_mem ht.nodup hhook, List.count_cons] at hcount
    have hnew1 : dfs t' (t.segments.length + 1) [s.name] = [s.name] := by
      have hpos : 0 < t.segments.length := by rw [ht.nseg]; omega
      have h0 : dfs t' t.segments.length [] = [] := by cases t.segments.length <;> rfl
      simp [dfs, hc2, h0]
    by_cases hh : t.root_name = hook
    · rw [if_pos hh, hnew1]
      have hb : (t.root_name == hook) = true := by simpa using hh
      rw [hb, if_pos rfl] at hcount
      have h0 : (dfs t t.segments.length (childrenOf t t.root_name)).count hook = 0 := by omega
      rw [h0] at hp
      simp only [List.replicate_zero, List.append_nil] at hp
      rw [← List.cons_append]
      exact List.Perm.append ((List.Perm.cons _ hp).trans ih) (List.Perm.refl _)
    · rw [if_neg hh]
      have hb : (t.root_name == hook) = false := by simpa using hh
      rw [hb, if_neg (by simp)] at hcount
      have h0 : (dfs t t.segments.length (childrenOf t t.root_name)).count hook = 1 := by omega
      rw [h0] at hp
      have h00 : dfs t' (t.segments.length + 1) [] = [] := by simp [dfs]
      rw [h00, List.append_nil]
      refine (List.Perm.cons _ hp).trans ?_
      rw [← List.cons_append]
      exact List.Perm.append ih (List.Perm.refl _)

/-! ### `addTreeRec` as a sequence of `addSegment` calls -/

/-- Add the listed segments of `src` one after the other, stopping at the first failure. -/
def addList (src : Tree) : List (String × String) → Tree → Bool × Tree
  | [], t => (true, t)
  | (n, h) :: l, t =>
    match src.find n with
    | none => (false, t)
    | some e =>
      match t.addSegment e.segment h with
      | (true, t1) => addList src l t1
      | (false, t1) => (false, t1)

theorem addList_append (src : Tree) (a b : List (String × String)) (t : Tree) :
    addList src (a ++ b) t = match addList src a t with
      | (true, t1) => addList src b t1
      | (false, t1) => (false, t1) := by
  induction a generalizing t with
  | nil => rfl
  | cons x a ih =>
    obtain ⟨n, h⟩ := x
    simp only [List.cons_append, addList]
    cases hf : src.find n with
    | none => rfl
    | some e =>
      simp only
      generalize t.addSegment e.segment h = r
      obtain ⟨b1, t1⟩ := r
      cases b1
      · rfl
      · simp only; rw [ih]

theorem addTreeRec_eq {src : Tree} (hs : src.WF) : ∀ (fuel : ℕ) (k : ℕ) (cs : List String) (hook : String) (t : Tree),
    Above src k cs → src.segments.length ≤ fuel + k →
    addTreeRec src fuel cs hook t = some (addList src (dfsP src fuel cs hook) t) := by
  intro fuel
  induction fuel with
  | zero =>
    intro k cs hook t h hN
    have : cs = [] := by
      by_contra hne
      obtain ⟨c, hc⟩ := List.exists_mem_of_ne_nil cs hne
      have := h.lt hc
      omega
    subst this
    simp [addTreeRec, dfsP, addList]
  | succ fuel ih =>
    intro k cs hook t h hN
    induction cs generalizing t with
    | nil => simp [addTreeRec, dfsP, addList]
    | cons c cs ihc =>
      have hcs : Above src k cs := fun x hx => h x (by simp [hx])
      have hch := h.children hs (c := c) (by simp)
      obtain ⟨i, e, h1, h2, _⟩ := h c (by simp)
      have hf : src.find c = some e := by rw [← h2]; exact find_of_get hs.nodup h1
      have hco : childrenOf src c = e.children := by simp [childrenOf, hf]
      have hd : dfsP src (fuel + 1) (c :: cs) hook =
          (c, hook) :: (dfsP src fuel e.children c ++ dfsP src (fuel + 1) cs hook) := by
        simp [dfsP, hco]
      rw [hd, addTreeRec, addList]
      simp only [hf]
      generalize t.addSegment e.segment hook = r
      obtain ⟨b, t1⟩ := r
      cases b
      · rfl
      · simp only
        rw [ih (k + 1) e.children c t1 (hco ▸ hch) (by omega), addList_append]
        generalize addList src (dfsP src fuel e.children c) t1 = r2
        obtain ⟨b2, t2⟩ := r2
        cases b2
        · rfl
        · simp only [if_true]
          exact ihc _ hcs

theorem Reach.addList {src t : Tree} (h : t.Reach) (l : List (String × String)) : (addList src l t).2.Reach := by
  induction l generalizing t with
  | nil => exact h
  | cons x l ih =>
    obtain ⟨n, hk⟩ := x
    simp only [Tree.addList]
    cases src.find n with
    | none => exact h
    | some e =>
      simp only
      have h1 : (t.addSegment e.segment hk).2.Reach := .add _ _ h
      generalize t.addSegment e.segment hk = r at h1
      obtain ⟨b, t1⟩ := r
      cases b
      · exact h1
      · exact ih h1

/-- Segment/parent table. -/
def table (t : Tree) : List (Segment × Option String) := t.segments.map fun e => (e.segment, e.parent)

/-- A list of additions succeeds when all names are new and distinct and every hook is present when needed. -/
theorem addList_success {src : Tree} : ∀ (l : List (String × String)) (t : Tree),
    (∀ x ∈ l, ∃ e, src.find x.1 = some e) → (l.map Prod.fst).Nodup → (∀ x ∈ l, x.1 ∉ t.names) →
    (∀ (a b : List (String × String)) (x : String × String), l = a ++ x :: b → x.2 ∈ t.names ∨ x.2 ∈ a.map Prod.fst) →
    (addList src l t).1 = true ∧ (addList src l t).2.names = t.names ++ l.map Prod.fst ∧
    (addList src l t).2.root_name = t.root_name ∧
    ∀ f : String → Segment, (∀ x ∈ l, ∃ e, src.find x.1 = some e ∧ e.segment = f x.1) →
      (addList src l t).2.table = t.table ++ l.map (fun x => (f x.1, some x.2)) := by
  intro l
  induction l with
  | nil => intro t _ _ _ _; simp [addList]
  | cons x l ih =>
    intro t h1 h2 h3 h4
    obtain ⟨n, hk⟩ := x
    obtain ⟨e, he⟩ := h1 (n, hk) (by simp)
    have hen : e.segment.name = n := (find_some he).2
    have hhook : hk ∈ t.names := by simpa using h4 [] l (n, hk) rfl
    have hnew : e.segment.name ∉ t.names := by rw [hen]; exact h3 (n, hk) (by simp)
    obtain ⟨k1, k2, k3⟩ := names_addSegment t e.segment hk hhook hnew
    have ktab : (t.addSegment e.segment hk).2.table = t.table ++ [(e.segment, some hk)] := by
      rcases addSegment_cases t e.segment hk with ⟨h | h, _⟩ | ⟨_, h⟩
      · exact absurd hhook h
      · exact absurd h hnew
      rw [h]
      simp [table, attach_eq, Function.comp_def]
    simp only [addList]
    simp only [he]
    generalize t.addSegment e.segment hk = r at k1 k2 k3 ktab
    obtain ⟨b, t1⟩ := r
    simp only at k1 k2 k3 ktab
    subst k3
    simp only
    rw [hen] at k1
    simp only [List.map_cons, List.nodup_cons] at h2
    obtain ⟨i1, i2, i3, i4⟩ := ih t1 (fun x hx => h1 x (by simp [hx])) h2.2 (by
        intro x hx
        rw [k1]
        simp only [List.mem_append, List.mem_singleton, not_or]
        refine ⟨h3 x (by simp [hx]), ?_⟩
        intro hxn
        exact h2.1 (hxn ▸ List.mem_map_of_mem hx)) (by
        intro a b x hx
        have := h4 ((n, hk) :: a) b x (by rw [hx]; rfl)
        rw [k1]
        simp only [List.map_cons, List.mem_cons, List.mem_append, List.not_mem_nil, or_false] at this ⊢
        tauto)
    refine ⟨i1, ?_, i3.trans k2, ?_⟩
    · rw [i2, k1]; simp
    · intro f hf
      rw [i4 f (fun x hx => hf x (by simp [hx])), ktab]
      obtain ⟨e', he', hfe⟩ := hf (n, hk) (by simp)
      rw [he] at he'; cases he'
      simp [hfe]

theorem dfsP_hook (t : Tree) : ∀ (fuel : ℕ) (cs : List String) (hook : String)
    (a b : List (String × String)) (x : String × String), dfsP t fuel cs hook = a ++ x :: b →
    x.2 = hook ∨ x.2 ∈ a.map Prod.fst := by
  intro fuel
  induction fuel with
  | zero => intro cs hook a b x h; simp [dfsP] at h
  | succ fuel ih =>
    intro cs hook a b x h
    simp only [dfsP] at h
    induction cs generalizing a with
    | nil => simp at h
    | cons c cs ihc =>
      simp only [List.flatMap_cons, List.cons_append] at h
      cases a with
      | nil =>
        simp only [List.nil_append, List.cons.injEq] at h
        left; rw [← h.1]
      | cons y a =>
        simp only [List.cons_append, List.cons.injEq] at h
        obtain ⟨hy, h⟩ := h
        rw [List.append_eq_append_iff] at h
        rcases h with ⟨a', ha, hb⟩ | ⟨c', hc, hd⟩
        · rcases ihc a' hb with h5 | h5
          · exact Or.inl h5
          · right; rw [ha]; simp only [List.map_cons, List.map_append, List.mem_cons, List.mem_append]; tauto
        · cases c' with
          | nil =>
            simp only [List.nil_append] at hd
            rcases ihc [] (by simpa using hd.symm) with h5 | h5
            · exact Or.inl h5
            · simp at h5
          | cons z c' =>
            simp only [List.cons_append, List.cons.injEq] at hd
            rw [← hd.1] at hc
            rcases ih _ _ a c' x hc with h5 | h5
            · right; rw [h5, ← hy]; simp
            · right; simp only [List.map_cons, List.mem_cons]; tauto

theorem dfsP_parent {t : Tree} (ht : t.WF) : ∀ (fuel k : ℕ) (cs : List String) (hook : String), Above t k cs →
    (∀ c ∈ cs, ∀ e, t.find c = some e → e.parent = some hook) →
    ∀ x ∈ dfsP t fuel cs hook, ∃ e, t.find x.1 = some e ∧ e.parent = some x.2 := by
  intro fuel
  induction fuel with
  | zero => intro k cs hook _ _ x hx; simp [dfsP] at hx
  | succ fuel ih =>
    intro k cs hook h hp x hx
    simp only [dfsP, List.mem_flatMap, List.mem_cons] at hx
    obtain ⟨c, hc, hx | hx⟩ := hx
    · subst hx
      obtain ⟨i, e, h1, h2, _⟩ := h c hc
      have hf : t.find c = some e := by rw [← h2]; exact find_of_get ht.nodup h1
      exact ⟨e, hf, hp c hc e hf⟩
    · refine ih (k + 1) _ c (h.children ht hc) ?_ x hx
      intro d hd e he
      unfold childrenOf at hd
      cases hfc : t.find c with
      | none => rw [hfc] at hd; simp at hd
      | some ec =>
        rw [hfc] at hd
        obtain ⟨h1, h2⟩ := find_some hfc
        obtain ⟨h3, h4⟩ := find_some he
        have := (parent_of_child ht h1 h3).mp (h4 ▸ hd)
        rw [this, h2]

theorem root_children_parent {t : Tree} (ht : t.WF) {n : String} :
    ∀ c ∈ childrenOf t n, ∀ e, t.find c = some e → e.parent = some n := by
  intro d hd e he
  unfold childrenOf at hd
  cases hfc : t.find n with
  | none => rw [hfc] at hd; simp at hd
  | some ec =>
    rw [hfc] at hd
    obtain ⟨h1, h2⟩ := find_some hfc
    obtain ⟨h3, h4⟩ := find_some he
    have := (parent_of_child ht h1 h3).mp (h4 ▸ hd)
    rw [this, h2]

/-! ### Uniqueness of the numbering and copies -/

theorem qnr_eq : ∀ (l l' : List TreeElem), l.map TreeElem.segment = l'.map TreeElem.segment →
    (l.filter TreeElem.moving).map TreeElem.q_nr = (l'.filter TreeElem.moving).map TreeElem.q_nr →
    (∀ e ∈ l, e.moving = false → e.q_nr = 0) → (∀ e ∈ l', e.moving = false → e.q_nr = 0) →
    l.map TreeElem.q_nr = l'.map TreeElem.q_nr := by
  intro l
  induction l with
  | nil => intro l' h _ _ _; cases l' with
    | nil => rfl
    | cons a l' => simp at h
  | cons a l ih =>
    intro l' h hf h1 h2
    cases l' with
    | nil => simp at h
    | cons b l' =>
      simp only [List.map_cons, List.cons.injEq] at h
      have hm : a.moving = b.moving := by unfold TreeElem.moving; rw [h.1]
      simp only [List.map_cons, List.cons.injEq]
      simp only [List.filter_cons, ← hm] at hf
      cases hma : a.moving with
      | true =>
        rw [hma] at hf
        simp only [if_true, List.map_cons, List.cons.injEq] at hf
        exact ⟨hf.1, ih l' h.2 hf.2 (fun e he => h1 e (by simp [he])) (fun e he => h2 e (by simp [he]))⟩
      | false =>
        rw [hma] at hf
        simp only [Bool.false_eq_true, if_false] at hf
        exact ⟨by rw [h1 a (by simp) hma, h2 b (by simp) (hm ▸ hma)],
          ih l' h.2 hf (fun e he => h1 e (by simp [he])) (fun e he => h2 e (by simp [he]))⟩

theorem table_segment (t : Tree) : t.segments.map TreeElem.segment = t.table.map Prod.fst := by
  simp [table, Function.comp_def]
theorem table_parent (t : Tree) : t.segments.map TreeElem.parent = t.table.map Prod.snd := by
  simp [table, Function.comp_def]
theorem names_table (t : Tree) : t.names = t.table.map fun x => x.1.name := by
  simp [table, names, Function.comp_def]; intro a _; rfl

theorem children_table {t : Tree} (ht : t.WF) {e : TreeElem} (he : e ∈ t.segments) :
    e.children = (t.table.filter fun x => x.2 = some e.name).map fun x => x.1.name := by
  rw [ht.children e he, table, List.filter_map, List.map_map]
  rfl

/-- Number of moving joints read off the table. -/
theorem nrOfJoints_table {t : Tree} (ht : t.WF) : t.nrOfJoints = (t.table.filter fun x => x.1.moving).length := by
  have := congrArg List.length ht.numbering
  simp only [List.length_map, List.length_range] at this
  rw [← this, table, List.filter_map, List.length_map]
  rfl

/-- An invariant-satisfying tree is determined by its segment/parent table. -/
theorem ext_of_table {t t' : Tree} (ht : t.WF) (ht' : t'.WF) (h : t.table = t'.table) (hr : t.root_name = t'.root_name) :
    t = t' := by
  have hs : t.segments.map TreeElem.segment = t'.segments.map TreeElem.segment := by
    rw [table_segment, table_segment, h]
  have hp : t.segments.map TreeElem.parent = t'.segments.map TreeElem.parent := by
    rw [table_parent, table_parent, h]
  have hnj : t.nrOfJoints = t'.nrOfJoints := by rw [nrOfJoints_table ht, nrOfJoints_table ht', h]
  have hq := qnr_eq _ _ hs (by rw [ht.numbering, ht'.numbering, hnj]) ht.fixed ht'.fixed
  have hlen : t.segments.length = t'.segments.length := by simpa using congrArg List.length hs
  have hseg : t.segments = t'.segments := by
    apply List.ext_getElem hlen
    intro i h1 h2
    have e1 : t.segments[i].segment = t'.segments[i].segment := by
      have := List.getElem_of_eq hs (i := i) (by simpa using h1); simpa using this
    have e2 : t.segments[i].parent = t'.segments[i].parent := by
      have := List.getElem_of_eq hp (i := i) (by simpa using h1); simpa using this
    have e3 : t.segments[i].q_nr = t'.segments[i].q_nr := by
      have := List.getElem_of_eq hq (i := i) (by simpa using h1); simpa using this
    have e4 : t.segments[i].children = t'.segments[i].children := by
      rw [children_table ht (List.getElem_mem _), children_table ht' (List.getElem_mem _), h]
      unfold TreeElem.name; rw [e1]
    generalize t.segments[i] = a at *
    generalize t'.segments[i] = b at *
    cases a; cases b
    simp only at e1 e2 e3 e4
    rw [e1, e2, e3, e4]
  have hns : t.nrOfSegments = t'.nrOfSegments := by
    have a := ht.nseg; have b := ht'.nseg; omega
  cases t; cases t'
  simp only at *
  rw [hseg, hnj, hns, hr]

theorem childrenOf_table {t : Tree} (ht : t.WF) (n : String) (hn : n ∈ t.names) :
    childrenOf t n = (t.table.filter fun x => x.2 = some n).map fun x => x.1.name := by
  obtain ⟨e, he⟩ := mem_names.mp hn
  obtain ⟨h1, h2⟩ := find_some he
  unfold childrenOf
  rw [he]
  simp only
  rw [children_table ht h1, h2]

/-- Below a node reached by the traversal, the traversal contains the node's own subtree. -/
theorem dfs_infix {t : Tree} (ht : t.WF) (x : String) : ∀ (fuel k : ℕ) (cs : List String), Above t k cs →
    t.segments.length ≤ fuel + k → x ∈ dfs t fuel cs →
    (x :: dfs t t.segments.length (childrenOf t x)) <:+: dfs t fuel cs := by
  have hst : ∀ (d fuel k : ℕ) (cs : List String), Above t k cs → t.segments.length ≤ fuel + k →
      dfs t (fuel + d) cs = dfs t fuel cs := by
    intro d
    induction d with
    | zero => intros; rfl
    | succ d ih =>
      intro fuel k cs h1 h2
      rw [← Nat.add_assoc, dfs_stable ht _ k _ h1 (by omega), ih fuel k cs h1 h2]
  intro fuel
  induction fuel with
  | zero => intro k cs _ _ hx; simp [dfs] at hx
  | succ fuel ih =>
    intro k cs h hN hx
    simp only [dfs] at hx ⊢
    rw [List.mem_flatMap] at hx
    obtain ⟨c, hc, hx⟩ := hx
    have hsub : (c :: dfs t fuel (childrenOf t c)) <:+: cs.flatMap fun c => c :: dfs t fuel (childrenOf t c) := by
      obtain ⟨a, b, rfl⟩ := List.append_of_mem hc
      simp only [List.flatMap_append, List.flatMap_cons]
      exact List.infix_append' _ _ _
    refine List.IsInfix.trans ?_ hsub
    rw [List.mem_cons] at hx
    rcases hx with rfl | hx
    · have hA := h.children ht hc
      have : dfs t t.segments.length (childrenOf t x) = dfs t fuel (childrenOf t x) := by
        rw [← hst fuel t.segments.length 0 _ (hA.mono (by omega)) (by omega), Nat.add_comm,
          hst t.segments.length fuel (k + 1) _ hA (by omega)]
      rw [this]
    · exact (ih (k + 1) _ (h.children ht hc) (by omega) hx).trans (List.suffix_cons _ _).isInfix

theorem dfs_fuel {t : Tree} (ht : t.WF) (fuel : ℕ) (cs : List String) (hA : Above t 0 cs)
    (h : t.segments.length ≤ fuel) : dfs t fuel cs = dfs t t.segments.length cs := by
  obtain ⟨d, rfl⟩ := Nat.exists_eq_add_of_le h
  induction d with
  | zero => rfl
  | succ d ih => rw [← Nat.add_assoc, dfs_stable ht _ 0 _ hA (by omega), ih (by omega)]

theorem above_childrenOf {t : Tree} (ht : t.WF) (n : String) : Above t 0 (childrenOf t n) := by
  cases hf : t.find n with
  | none => simp [childrenOf, hf, Above]
  | some e =>
    obtain ⟨h1, _⟩ := find_some hf
    obtain ⟨i, hi, hie⟩ := List.getElem_of_mem h1
    have := above_children ht (i := i) (e := e) (by rw [List.getElem?_eq_getElem hi, hie])
    unfold childrenOf
    rw [hf]
    exact this.mono (by omega)

/-- The names below `n`, depth first. -/
def below (t : Tree) (n : String) : List String := dfs t t.segments.length (childrenOf t n)

theorem Reach.below_nodup {t : Tree} (h : t.Reach) (n : String) (hn : n ∈ t.names) : (n :: t.below n).Nodup := by
  have ht := h.wf
  have hp := h.dfs_perm
  by_cases hr : n = t.root_name
  · subst hr; exact hp.nodup_iff.mpr ht.nodup
  have hmem : n ∈ dfs t t.segments.length (childrenOf t t.root_name) := by
    have := hp.symm.subset hn
    simpa [hr] using this
  have hin := dfs_infix ht n t.segments.length 0 _ (above_childrenOf ht _) (by omega) hmem
  have hnd : (dfs t t.segments.length (childrenOf t t.root_name)).Nodup :=
    (List.nodup_cons.mp (hp.nodup_iff.mpr ht.nodup)).2
  exact hnd.sublist hin.sublist

theorem below_names {t : Tree} (h : t.WF) (n : String) : ∀ x ∈ t.below n, x ∈ t.names := by
  have key : ∀ (fuel : ℕ) (cs : List String), Above t 0 cs → ∀ x ∈ dfs t fuel cs, x ∈ t.names := by
    intro fuel
    induction fuel with
    | zero => intro cs _ x hx; simp [dfs] at hx
    | succ fuel ih =>
      intro cs hA x hx
      simp only [dfs, List.mem_flatMap, List.mem_cons] at hx
      obtain ⟨c, hc, rfl | hx⟩ := hx
      · obtain ⟨i, e, h1, h2, _⟩ := hA x hc
        rw [← h2]; exact List.mem_map_of_mem (List.mem_of_getElem? h1)
      · exact ih _ (above_childrenOf h c) x hx
  exact key _ _ (above_childrenOf h n)

/-- Segment of a name (default for unknown names). -/
def segOf (t : Tree) (n : String) : Segment :=
  match t.find n with
  | some e => e.segment
  | none => Segment.ofName n

theorem dfsP_fuel {t : Tree} (ht : t.WF) : ∀ (fuel k : ℕ) (cs : List String) (hook : String), Above t k cs →
    t.segments.length ≤ fuel + k → dfsP t (fuel + 1) cs hook = dfsP t fuel cs hook := by
  intro fuel
  induction fuel with
  | zero =>
    intro k cs hook h hN
    have : cs = [] := by
      by_contra hne
      obtain ⟨c, hc⟩ := List.exists_mem_of_ne_nil cs hne
      have := h.lt hc
      omega
    subst this; rfl
  | succ fuel ih =>
    intro k cs hook h hN
    conv_lhs => unfold dfsP
    conv_rhs => unfold dfsP
    apply List.flatMap_congr
    intro c hc
    rw [ih (k + 1) _ c (h.children ht hc) (by omega)]

/-- Grafting the part of `src` below `n` onto `hook` of `t`. -/
theorem graft {src t : Tree} (hs : src.Reach) (n hook : String) (hn : n ∈ src.names) (hh : hook ∈ t.names)
    (hdis : ∀ x ∈ src.below n, x ∉ t.names) : ∃ t', addTreeRec src (src.segments.length + 1) (childrenOf src n) hook t =
      some (true, t') ∧ t'.names = t.names ++ src.below n ∧ t'.root_name = t.root_name ∧ (t.Reach → t'.Reach) ∧
      t'.table = t.table ++ (dfsP src src.segments.length (childrenOf src n) hook).map
        (fun x => (src.segOf x.1, some x.2)) := by
  have hw := hs.wf
  have hA := above_childrenOf hw n
  have hst := dfsP_fuel hw src.segments.length 0 (childrenOf src n) hook hA (by omega)
  have hfst := dfsP_fst src src.segments.length (childrenOf src n) hook
  have hrec := addTreeRec_eq hw (src.segments.length + 1) 0 (childrenOf src n) hook t hA (by omega)
  rw [hst] at hrec
  have hfound : ∀ x ∈ dfsP src src.segments.length (childrenOf src n) hook, ∃ e, src.find x.1 = some e := by
    intro x hx
    apply mem_names.mp
    apply below_names hw n
    unfold below; rw [← hfst]; exact List.mem_map_of_mem hx
  obtain ⟨k1, k2, k3, k4⟩ := addList_success (src := src) (dfsP src src.segments.length (childrenOf src n) hook) t hfound
    (by rw [hfst]; exact (List.nodup_cons.mp (hs.below_nodup n hn)).2)
    (by
      intro x hx
      apply hdis
      unfold below; rw [← hfst]; exact List.mem_map_of_mem hx)
    (by
      intro a b x hx
      rcases dfsP_hook src _ _ _ a b x hx with h | h
      · left; rw [h]; exact hh
      · exact Or.inr h)
  refine ⟨(addList src (dfsP src src.segments.length (childrenOf src n) hook) t).2, ?_, ?_, k3, ?_, ?_⟩
  · rw [hrec, ← k1]
  · rw [k2, hfst]; rfl
  · intro h; exact h.addList _
  · apply k4
    intro x hx
    obtain ⟨e, he⟩ := hfound x hx
    exact ⟨e, he, by simp [segOf, he]⟩

/-- The traversal lists the children of every node in their original order. -/
theorem dfsP_children {t : Tree} (ht : t.WF) (x : String) : ∀ (fuel k : ℕ) (cs : List String) (hook : String),
    Above t k cs → t.segments.length ≤ fuel + k → (dfs t fuel cs).Nodup → hook ∉ dfs t fuel cs →
    ((dfsP t fuel cs hook).filter fun p => p.2 = x).map Prod.fst =
      (if x = hook then cs else if x ∈ dfs t fuel cs then childrenOf t x else []) := by
  intro fuel
  induction fuel with
  | zero =>
    intro k cs hook h hN _ _
    have : cs = [] := by
      by_contra hne
      obtain ⟨c, hc⟩ := List.exists_mem_of_ne_nil cs hne
      have := h.lt hc
      omega
    subst this
    simp [dfsP, dfs]
  | succ fuel ih =>
    intro k cs hook h hN hnd hhook
    induction cs with
    | nil => simp [dfsP, dfs]
    | cons c cs ihc =>
      have hd : dfs t (fuel + 1) (c :: cs) = (c :: dfs t fuel (childrenOf t c)) ++ dfs t (fuel + 1) cs := by simp [dfs]
      have hdp : dfsP t (fuel + 1) (c :: cs) hook =
          ((c, hook) :: dfsP t fuel (childrenOf t c) c) ++ dfsP t (fuel + 1) cs hook := by simp [dfsP]
      rw [hd] at hnd hhook
      rw [List.nodup_append] at hnd
      obtain ⟨n1, n2, n3⟩ := hnd
      rw [List.nodup_cons] at n1
      simp only [List.mem_append, List.mem_cons, not_or] at hhook
      have i1 := ihc (fun y hy => h y (by simp [hy])) n2 hhook.2
      have i2 := ih (k + 1) (childrenOf t c) c (h.children ht (by simp)) (by omega) n1.2 n1.1
      rw [hdp, hd, List.filter_append, List.map_append, i1, List.filter_cons]
      simp only [decide_eq_true_eq]
      by_cases hx : x = hook
      · subst hx
        simp only [if_true, List.map_cons, i2]
        rw [if_neg hhook.1.1, if_neg hhook.1.2]
        rfl
      · rw [if_neg (fun h => hx h.symm), i2, if_neg hx, if_neg hx]
        by_cases hxc : x = c
        · subst hxc
          have : x ∉ dfs t (fuel + 1) cs := fun hm => n3 x (by simp) x hm rfl
          rw [if_neg this, List.append_nil, if_pos rfl, if_pos (by simp)]
        · rw [if_neg hxc]
          by_cases hm : x ∈ dfs t fuel (childrenOf t c)
          · have : x ∉ dfs t (fuel + 1) cs := fun hm' => n3 x (by simp [hm]) x hm' rfl
            rw [if_pos hm, if_neg this, List.append_nil, if_pos (by simp [hm])]
          · rw [if_neg hm, List.nil_append]
            congr 1
            simp [hxc, hm]

end Tree
end KDL
