import Verif.Lemmas.Tree

/-! C31 and C32: joint numbering of trees, and what copying a tree does to it. -/

noncomputable section
namespace KDL
namespace Tree

/-! ## C31: invariants of a tree grown through its public interface -/

/-- Every tree obtained from the constructor by `addSegment` calls: the moving joints are numbered `0 … nrOfJoints-1`,
each number exactly once. -/
theorem C31_numbering {t : Tree} (h : t.Reach) :
    (∀ e ∈ t.segments, e.moving → e.q_nr < t.nrOfJoints) ∧
    ∀ k < t.nrOfJoints, ∃! e, e ∈ t.segments ∧ e.moving = true ∧ e.q_nr = k := by
  have hw := h.wf
  have hmem : ∀ e, e ∈ t.segments.filter TreeElem.moving ↔ e ∈ t.segments ∧ e.moving = true := by
    intro e; rw [List.mem_filter]
  have hnd : ((t.segments.filter TreeElem.moving).map TreeElem.q_nr).Nodup := by
    rw [hw.numbering]; exact List.nodup_range
  constructor
  · intro e he hm
    have : e.q_nr ∈ List.range t.nrOfJoints := by
      rw [← hw.numbering]; exact List.mem_map_of_mem ((hmem e).mpr ⟨he, hm⟩)
    simpa using this
  · intro k hk
    have : k ∈ List.range t.nrOfJoints := by simpa using hk
    rw [← hw.numbering, List.mem_map] at this
    obtain ⟨e, he, hek⟩ := this
    refine ⟨e, ⟨((hmem e).mp he).1, ((hmem e).mp he).2, hek⟩, ?_⟩
    rintro e' ⟨h1, h2, h3⟩
    exact List.inj_on_of_nodup_map hnd ((hmem e').mpr ⟨h1, h2⟩) he (by rw [h3, hek])

/-- The counters agree with the contents; the root is not counted. -/
theorem C31_counts {t : Tree} (h : t.Reach) :
    t.nrOfSegments + 1 = t.segments.length ∧ t.nrOfJoints = (t.segments.filter TreeElem.moving).length := by
  have hw := h.wf
  refine ⟨hw.nseg.symm, ?_⟩
  have := congrArg List.length hw.numbering
  simpa using this.symm

/-- Names are unique keys; the root is present with a fixed joint and no parent. -/
theorem C31_keys {t : Tree} (h : t.Reach) : t.names.Nodup ∧
    ∃ r, t.find t.root_name = some r ∧ r.parent = none ∧ r.moving = false ∧
      ∀ e ∈ t.segments, e.parent = none → e = r := by
  have hw := h.wf
  obtain ⟨r, rest, h1, h2, h3, _⟩ := root_cons hw
  obtain ⟨r', k1, k2, k3, _⟩ := hw.root
  have hrr : r' = r := by rw [h1] at k1; simpa using k1.symm
  subst hrr
  refine ⟨hw.nodup, r', h3, k3, ?_, ?_⟩
  · unfold TreeElem.moving; rw [k2]; simp [Segment.ofName, Segment.moving, Joint.moving]
  · intro e he hp
    obtain ⟨i, hi, hie⟩ := List.getElem_of_mem he
    have hget : t.segments[i]? = some e := by rw [List.getElem?_eq_getElem hi, hie]
    by_cases hi0 : i = 0
    · subst hi0; rw [hget] at k1; exact Option.some.inj k1
    · obtain ⟨j, p, _, _, h5⟩ := hw.parents i e hget hi0
      rw [h5] at hp; cases hp

/-- Parent and child lists mirror each other, and parents are always older than their children (no cycles). -/
theorem C31_parent_child {t : Tree} (h : t.Reach) :
    (∀ e ∈ t.segments, ∀ c, c ∈ e.children ↔ ∃ x, t.find c = some x ∧ x.parent = some e.name) ∧
    (∀ (i : ℕ) (x : TreeElem) (p : String), t.segments[i]? = some x → x.parent = some p →
      ∃ (j : ℕ) (e : TreeElem), j < i ∧ t.segments[j]? = some e ∧ e.name = p) := by
  have hw := h.wf
  constructor
  · intro e he c
    constructor
    · intro hc
      have hc' := hc
      rw [hw.children e he] at hc'
      simp only [List.mem_map, List.mem_filter, decide_eq_true_eq] at hc'
      obtain ⟨x, ⟨hx, hp⟩, rfl⟩ := hc'
      exact ⟨x, find_of_mem hw.nodup hx, hp⟩
    · rintro ⟨x, hx, hp⟩
      obtain ⟨h1, h2⟩ := find_some hx
      rw [← h2]; exact (parent_of_child hw he h1).mpr hp
  · intro i x p hx hp
    by_cases hi : i = 0
    · obtain ⟨r, h1, _, h3, _⟩ := hw.root
      subst hi; rw [hx] at h1; cases h1
      rw [h3] at hp; cases hp
    · obtain ⟨j, e, h1, h2, h3⟩ := hw.parents i x hx hi
      rw [h3] at hp
      exact ⟨j, e, h1, h2, Option.some.inj hp⟩

/-- `addSegment` succeeds exactly when the hook exists and the name is new; a failed call leaves the tree unchanged. -/
theorem C31_addSegment_iff (t : Tree) (s : Segment) (hook : String) :
    ((t.addSegment s hook).1 = true ↔ hook ∈ t.names ∧ s.name ∉ t.names) ∧
    ((t.addSegment s hook).1 = false → (t.addSegment s hook).2 = t) := by
  rcases addSegment_cases t s hook with ⟨h1, h⟩ | ⟨h1, h⟩
  · rw [h]
    refine ⟨⟨by simp, ?_⟩, fun _ => rfl⟩
    rintro ⟨a, b⟩
    rcases h1 with h1 | h1 <;> contradiction
  · rw [h]
    exact ⟨⟨fun _ => h1, fun _ => rfl⟩, by simp⟩

/-- A successful `addSegment`: the new segment hangs under the hook with the next free joint number (0 for a fixed
joint), and no existing segment changes its segment data, number or parent. -/
theorem C31_addSegment_effect (t : Tree) (s : Segment) (hook : String) (hh : hook ∈ t.names) (hn : s.name ∉ t.names)
    (hnd : t.names.Nodup) :
    (∃ e, (t.addSegment s hook).2.find s.name = some e ∧ e.segment = s ∧ e.parent = some hook ∧ e.children = [] ∧
      e.q_nr = if s.moving then t.nrOfJoints else 0) ∧
    (∀ n e, t.find n = some e → ∃ e', (t.addSegment s hook).2.find n = some e' ∧ e'.segment = e.segment ∧
      e'.q_nr = e.q_nr ∧ e'.parent = e.parent ∧ e'.children = if n = hook then e.children ++ [s.name] else e.children) ∧
    (t.addSegment s hook).2.nrOfJoints = t.nrOfJoints + (if s.moving then 1 else 0) ∧
    (t.addSegment s hook).2.nrOfSegments = t.nrOfSegments + 1 := by
  have hnames := (names_addSegment t s hook hh hn).1
  have hnd' : (t.addSegment s hook).2.names.Nodup := by
    rw [hnames, List.nodup_append]
    refine ⟨hnd, by simp, ?_⟩
    intro a ha b hb
    simp at hb
    rintro rfl; subst hb; exact hn ha
  rcases addSegment_cases t s hook with ⟨h | h, _⟩ | ⟨_, h⟩
  · exact absurd hh h
  · exact absurd h hn
  rw [h] at hnd' ⊢
  refine ⟨?_, ?_, ?_, rfl⟩
  · have hm : (⟨s, if s.moving then t.nrOfJoints else 0, some hook, []⟩ : TreeElem) ∈
        attach t.segments s hook (if s.moving then t.nrOfJoints else 0) := by rw [attach_eq]; simp
    exact ⟨_, find_of_mem hnd' hm, rfl, rfl, rfl, rfl⟩
  · intro n e he
    obtain ⟨h1, h2⟩ := find_some he
    have hm : grow hook s.name e ∈ attach t.segments s hook (if s.moving then t.nrOfJoints else 0) := by
      rw [attach_eq]; exact List.mem_append_left _ (List.mem_map_of_mem h1)
    have hf := find_of_mem hnd' hm
    rw [grow_name, h2] at hf
    refine ⟨_, hf, by simp, by simp, by simp, ?_⟩
    simp only [grow, h2]
    split_ifs <;> rfl
  · simp only; split_ifs <;> rfl

/-- `addChain`, `addTree`, `getSubTree`, copying and assigning stay within the trees described above (whatever the
hook, and also when they fail half way). -/
theorem C31_operations_closed {t src : Tree} (ht : t.Reach) (hs : src.Reach) :
    (∀ ss hook, (t.addChain ss hook).2.Reach) ∧
    (∀ hook, ∃ b t', t.addTree src hook = some (b, t') ∧ t'.Reach) ∧
    (∀ n, ∃ b t', src.getSubTree n t = some (b, t') ∧ t'.Reach) ∧
    (∃ t', src.copy = some t' ∧ t'.Reach) ∧ (∃ t', t.assign src = some t' ∧ t'.Reach) := by
  have hw := hs.wf
  have key : ∀ (n hook : String) (u : Tree), u.Reach → ∃ b t',
      addTreeRec src (src.segments.length + 1) (childrenOf src n) hook u = some (b, t') ∧ t'.Reach := by
    intro n hook u hu
    rw [addTreeRec_eq hw _ 0 _ _ _ (above_childrenOf hw n) (by omega)]
    exact ⟨_, _, rfl, hu.addList _⟩
  obtain ⟨r, rest, _, _, h3, _⟩ := root_cons hw
  have hroot : childrenOf src src.root_name = r.children := by simp [childrenOf, h3]
  have hadd : ∀ (u : Tree) (hook : String), u.Reach → ∃ b t', u.addTree src hook = some (b, t') ∧ t'.Reach := by
    intro u hook hu
    unfold addTree
    rw [h3]
    simp only
    rw [← hroot]
    exact key _ _ _ hu
  refine ⟨fun ss hook => ht.addChain ss hook, fun hook => hadd t hook ht, ?_, ?_, ?_⟩
  · intro n
    unfold getSubTree
    cases hf : src.find n with
    | none => exact ⟨_, _, rfl, ht⟩
    | some e =>
      have : childrenOf src n = e.children := by simp [childrenOf, hf]
      simp only
      rw [← this]
      exact key _ _ _ (.new n)
  · obtain ⟨b, t', h1, h2⟩ := hadd (new src.root_name) src.root_name (.new _)
    exact ⟨t', by simp [copy, h1], h2⟩
  · obtain ⟨b, t', h1, h2⟩ := hadd (new src.root_name) src.root_name (.new _)
    exact ⟨t', by simp [assign, h1], h2⟩

/-- `addChain` adds the longest prefix of the chain that can be added, in order, each segment under its predecessor;
it reports success iff that is the whole chain.  (So a failing call is not undone.) -/
theorem C31_addChain_prefix (t : Tree) (ss : List Segment) (hook : String) :
    ∃ pre post, ss = pre ++ post ∧ t.addChain pre hook = (true, (t.addChain ss hook).2) ∧
      ((t.addChain ss hook).1 = true ↔ post = []) ∧
      (∀ s rest, post = s :: rest → ((t.addChain ss hook).2.addSegment s
        ((pre.map Segment.name).getLast?.getD hook)).1 = false) := by
  induction ss generalizing t hook with
  | nil => exact ⟨[], [], rfl, rfl, by simp [addChain], by simp⟩
  | cons s ss ih =>
    rcases addSegment_cases t s hook with ⟨_, h⟩ | ⟨_, h⟩
    · refine ⟨[], s :: ss, rfl, ?_, ?_, ?_⟩
      · simp [addChain, h]
      · simp [addChain, h]
      · intro s' rest he
        cases he
        simp [addChain, h]
    · set t1 : Tree := (⟨attach t.segments s hook (if s.moving then t.nrOfJoints else 0),
        if s.moving then t.nrOfJoints + 1 else t.nrOfJoints, t.nrOfSegments + 1, t.root_name⟩ : Tree) with ht1
      obtain ⟨pre, post, h1, h2, h3, h4⟩ := ih t1 s.name
      have hstep : ∀ l, t.addChain (s :: l) hook = t1.addChain l s.name := by
        intro l; rw [addChain]; simp only [h]
      refine ⟨s :: pre, post, by rw [h1]; rfl, ?_, ?_, ?_⟩
      · rw [hstep, hstep]; exact h2
      · rw [hstep]; exact h3
      · rw [hstep]
        intro s' rest he
        have := h4 s' rest he
        rw [List.map_cons]
        cases pre with
        | nil => simpa using this
        | cons a pre => simpa [List.getLast?_cons] using this

/-- FULL PROPERTY "assignment gives a tree with the contents of its argument" fails for `t = t`: the object is cleared
before it is read, so every self-assignment yields the bare root. -/
theorem C32_self_assignment_violated :
    (∀ t : Tree, t.assignSelf = some (new t.root_name)) ∧
    ∃ t : Tree, t.Reach ∧ t.nrOfSegments = 1 ∧ t.assignSelf ≠ some t := by
  have h1 : ∀ t : Tree, t.assignSelf = some (new t.root_name) := by
    intro t
    simp [assignSelf, find, new, TreeElem.name, Segment.ofName, addTreeRec]
  refine ⟨h1, ((new "r").addSegment (Segment.ofName "a") "r").2, .add _ _ (.new _), ?_, ?_⟩
  · simp [addSegment, find, new, TreeElem.name, Segment.ofName]
  · rw [h1]
    simp [addSegment, find, new, TreeElem.name, Segment.ofName, attach]

/-- A segment with a `RotX` joint, for the examples. -/
def mv (n : String) : Segment := ⟨n, ⟨n, .RotX, 1, 0, 0, 0, 0, 0, 0⟩, RBI.zero, 1⟩
/-- The example tree: A and B under the root, then C under A. -/
def demo : Tree := ((((new "r").addSegment (mv "A") "r").2.addSegment (mv "B") "r").2.addSegment (mv "C") "A").2

theorem demo_reach : demo.Reach := .add _ _ (.add _ _ (.add _ _ (.new _)))

theorem demo_eq : demo = ⟨[⟨Segment.ofName "r", 0, none, ["A", "B"]⟩, ⟨mv "A", 0, some "r", ["C"]⟩,
    ⟨mv "B", 1, some "r", []⟩, ⟨mv "C", 2, some "A", []⟩], 3, 3, "r"⟩ := by
  simp [demo, addSegment, find, new, TreeElem.name, Segment.ofName, attach, mv, Segment.moving, Joint.moving]

example : demo.nrOfJoints = 3 ∧ ∀ k < 3, ∃! e, e ∈ demo.segments ∧ e.moving = true ∧ e.q_nr = k := by
  have h : demo.nrOfJoints = 3 := by rw [demo_eq]
  refine ⟨h, ?_⟩
  have := (C31_numbering demo_reach).2
  rwa [h] at this

/-! ## C32: copying -/

/-- The depth-first list of names, root first. -/
def dfsNames (t : Tree) : List String := t.root_name :: t.below t.root_name

/-- Copying a tree succeeds in adding every segment; the copy has the same segments with the same parents (as a set of
pairs), the same root and the same counters; the order of insertion becomes the depth-first order. -/
theorem C32_copy_structure {t : Tree} (h : t.Reach) : ∃ t', t.copy = some t' ∧ t'.Reach ∧
    t'.table.Perm t.table ∧ t'.root_name = t.root_name ∧ t'.nrOfJoints = t.nrOfJoints ∧
    t'.nrOfSegments = t.nrOfSegments ∧ t'.names = t.dfsNames ∧
    ((new t.root_name).addTree t t.root_name) = some (true, t') := by
  have hw := h.wf
  obtain ⟨r, rest, h1, h2, h3, h4⟩ := root_cons hw
  have hroot : childrenOf t t.root_name = r.children := by simp [childrenOf, h3]
  have hrn : t.root_name ∈ t.names := by rw [h4]; simp
  have hnd := h.below_nodup _ hrn
  have hnew : (new t.root_name).names = [t.root_name] := by simp [names, new, TreeElem.name, Segment.ofName]
  obtain ⟨t', k1, k2, k3, k4, k5⟩ := graft (t := new t.root_name) h t.root_name t.root_name hrn (by rw [hnew]; simp) (by
    intro x hx
    rw [hnew]
    simp only [List.mem_singleton]
    rintro rfl
    exact (List.nodup_cons.mp hnd).1 hx)
  have hadd : (new t.root_name).addTree t t.root_name = some (true, t') := by
    unfold addTree; rw [h3]; simp only; rw [← hroot]; exact k1
  have hR := k4 (.new _)
  have hperm : t'.table.Perm t.table := by
    rw [k5]
    have hpar : (dfsP t t.segments.length (childrenOf t t.root_name) t.root_name).map
        (fun x => (t.segOf x.1, some x.2)) = (t.below t.root_name).map (fun n => (t.segOf n, (t.find n).bind TreeElem.parent)) := by
      unfold below
      rw [← dfsP_fst t t.segments.length _ t.root_name, List.map_map]
      apply List.map_congr_left
      intro x hx
      obtain ⟨e, he, hp⟩ := dfsP_parent hw _ 0 _ _ (above_childrenOf hw _) (root_children_parent hw) x hx
      simp [he, hp]
    rw [hpar]
    have hp := h.dfs_perm
    rw [h4, List.perm_cons] at hp
    have h5 : t.table = (new t.root_name).table ++ (rest.map TreeElem.name).map
        (fun n => (t.segOf n, (t.find n).bind TreeElem.parent)) := by
      have hr : (new t.root_name).table = [(r.segment, r.parent)] := by
        obtain ⟨r', j1, j2, j3, _⟩ := hw.root
        rw [h1] at j1; simp at j1; subst j1
        simp [table, new, j2, j3]
      rw [hr, table, h1, List.map_cons, List.singleton_append, List.map_map]
      congr 1
      apply List.map_congr_left
      intro e he
      have := find_of_mem hw.nodup (e := e) (by rw [h1]; simp [he])
      simp [segOf, this]
    rw [h5]
    exact List.Perm.append_left _ (hp.map _)
  refine ⟨t', by simp [copy, hadd], hR, hperm, k3, ?_, ?_, ?_, hadd⟩
  · rw [nrOfJoints_table hR.wf, nrOfJoints_table hw]
    exact (hperm.filter _).length_eq
  · have a := hR.wf.nseg
    have b := hw.nseg
    have c := hperm.length_eq
    simp only [table, List.length_map] at c
    omega
  · rw [k2, hnew]; rfl

/-- The copy lists the children of every segment in the original order. -/
theorem C32_copy_children {t t' : Tree} (h : t.Reach) (hc : t.copy = some t') (n : String) :
    childrenOf t' n = childrenOf t n := by
  have hw := h.wf
  obtain ⟨r, rest, h1, h2, h3, h4⟩ := root_cons hw
  have hrn : t.root_name ∈ t.names := by rw [h4]; simp
  obtain ⟨t'', k1, k2, k3, k4, k5, k6, k7, k8⟩ := C32_copy_structure h
  rw [hc] at k1; cases k1
  have hnames : ∀ x, x ∈ t'.names ↔ x ∈ t.names := by
    intro x
    rw [k7]
    exact h.dfs_perm.mem_iff
  by_cases hn : n ∈ t.names
  swap
  · have h5 : t'.find n = none := find_none.mpr (fun hx => hn ((hnames n).mp hx))
    have h6 : t.find n = none := find_none.mpr hn
    simp [childrenOf, h5, h6]
  rw [childrenOf_table k2.wf n ((hnames n).mpr hn)]
  have hnd := h.below_nodup _ hrn
  have hnew : (new t.root_name).names = [t.root_name] := by simp [names, new, TreeElem.name, Segment.ofName]
  obtain ⟨t3, j1, j2, j3, j4, j5⟩ := graft (t := new t.root_name) h t.root_name t.root_name hrn (by rw [hnew]; simp) (by
    intro x hx
    rw [hnew]
    simp only [List.mem_singleton]
    rintro rfl
    exact (List.nodup_cons.mp hnd).1 hx)
  have hroot : childrenOf t t.root_name = r.children := by simp [childrenOf, h3]
  have h33 : t3 = t' := by
    have : (new t.root_name).addTree t t.root_name = some (true, t3) := by
      unfold addTree; rw [h3]; simp only; rw [← hroot]; exact j1
    rw [this] at k8
    simpa using k8
  subst h33
  rw [j5, List.filter_append, List.map_append]
  have h0 : ((new t.root_name).table.filter fun x => x.2 = some n) = [] := by simp [table, new]
  rw [h0, List.filter_map, List.map_map]
  simp only [List.map_nil, List.nil_append, Function.comp_def]
  have hch := dfsP_children hw n t.segments.length 0 (childrenOf t t.root_name) t.root_name (above_childrenOf hw _)
    (by omega) (List.nodup_cons.mp hnd).2 (List.nodup_cons.mp hnd).1
  have hmem : n = t.root_name ∨ n ∈ dfs t t.segments.length (childrenOf t t.root_name) := by
    simpa using h.dfs_perm.symm.subset hn
  have hgoal : ((dfsP t t.segments.length (childrenOf t t.root_name) t.root_name).filter fun p => p.2 = n).map Prod.fst =
      childrenOf t n := by
    rw [hch]
    rcases hmem with hm | hm
    · rw [if_pos hm, hm]
    · by_cases hr : n = t.root_name
      · rw [if_pos hr, hr]
      · rw [if_neg hr, if_pos hm]
  rw [← hgoal]
  simp only [Option.some.injEq]
  apply List.map_congr_left
  intro x hx
  have hx' := List.mem_of_mem_filter hx
  have : x.1 ∈ t.names := by
    apply below_names hw t.root_name
    unfold below
    rw [← dfsP_fst t _ _ t.root_name]; exact List.mem_map_of_mem hx'
  obtain ⟨e, he⟩ := mem_names.mp this
  simp only [segOf, he]
  exact (find_some he).2

/-- Copying returns the very same tree (numbers included) exactly when the segments were inserted in depth-first order. -/
theorem C32_copy_exact_iff {t : Tree} (h : t.Reach) : t.copy = some t ↔ t.names = t.dfsNames := by
  obtain ⟨t', k1, k2, k3, k4, k5, k6, k7, _⟩ := C32_copy_structure h
  constructor
  · intro hc
    rw [k1] at hc; cases hc
    exact k7
  · intro hn
    rw [k1]
    congr 1
    apply ext_of_table k2.wf h.wf _ k4
    have hmapn : t'.table.map (fun x => x.1.name) = t.table.map (fun x => x.1.name) := by
      rw [← names_table, ← names_table, k7, hn]
    apply List.ext_getElem k3.length_eq
    intro i h1 h2
    have hm : t'.table[i] ∈ t.table := k3.subset (List.getElem_mem h1)
    have hm2 : t.table[i] ∈ t.table := List.getElem_mem h2
    refine List.inj_on_of_nodup_map (f := fun x : Segment × Option String => x.1.name) ?_ hm hm2 ?_
    · rw [← names_table]; exact h.wf.nodup
    · have := List.getElem_of_eq hmapn (i := i) (by simpa using h1)
      simpa using this

/-- Copying a copy changes nothing any more. -/
theorem C32_copy_idempotent {t t' : Tree} (h : t.Reach) (hc : t.copy = some t') : t'.copy = some t' := by
  obtain ⟨t'', k1, k2, k3, k4, k5, k6, k7, _⟩ := C32_copy_structure h
  rw [hc] at k1; cases k1
  rw [C32_copy_exact_iff k2, k7]
  unfold dfsNames below
  have hlen : t'.segments.length = t.segments.length := by
    have := k3.length_eq; simpa [table] using this
  rw [k4, hlen, C32_copy_children h hc]
  congr 1
  have : ∀ (fuel : ℕ) (cs : List String), dfs t fuel cs = dfs t' fuel cs := by
    intro fuel
    induction fuel with
    | zero => intro cs; rfl
    | succ fuel ih =>
      intro cs
      simp only [dfs, C32_copy_children h hc, ih]
  exact this _ _

/-- `addTree` onto another tree: if the hook exists and no name clashes, everything below the root of the argument is
added, in depth-first order, with unchanged segments; the joints get the next free numbers. -/
theorem C32_addTree_success {t src : Tree} (ht : t.Reach) (hs : src.Reach) (hook : String) (hh : hook ∈ t.names)
    (hdis : ∀ x ∈ src.below src.root_name, x ∉ t.names) :
    ∃ t', t.addTree src hook = some (true, t') ∧ t'.Reach ∧ t'.names = t.names ++ src.below src.root_name ∧
      (∀ n e, t.find n = some e → ∃ e', t'.find n = some e' ∧ e'.segment = e.segment ∧ e'.parent = e.parent) ∧
      (∀ n ∈ src.below src.root_name, ∃ e e', src.find n = some e ∧ t'.find n = some e' ∧ e'.segment = e.segment ∧
        e'.parent = (if e.parent = some src.root_name then some hook else e.parent)) := by
  have hw := hs.wf
  obtain ⟨r, rest, h1, h2, h3, h4⟩ := root_cons hw
  have hroot : childrenOf src src.root_name = r.children := by simp [childrenOf, h3]
  have hrn : src.root_name ∈ src.names := by rw [h4]; simp
  obtain ⟨t', k1, k2, k3, k4, k5⟩ := graft (t := t) hs src.root_name hook hrn hh hdis
  have hadd : t.addTree src hook = some (true, t') := by
    unfold addTree; rw [h3]; simp only; rw [← hroot]; exact k1
  have hR := k4 ht
  have hfind : ∀ p ∈ t'.table, ∃ e', t'.find p.1.name = some e' ∧ e'.segment = p.1 ∧ e'.parent = p.2 := by
    intro p hp
    simp only [table, List.mem_map] at hp
    obtain ⟨e', he', rfl⟩ := hp
    exact ⟨e', find_of_mem hR.wf.nodup he', rfl, rfl⟩
  refine ⟨t', hadd, hR, k2, ?_, ?_⟩
  · intro n e he
    obtain ⟨m1, m2⟩ := find_some he
    obtain ⟨e', a, b, c⟩ := hfind (e.segment, e.parent) (by
      rw [k5]; exact List.mem_append_left _ (List.mem_map_of_mem (f := fun e : TreeElem => (e.segment, e.parent)) m1))
    refine ⟨e', ?_, b, c⟩
    rw [← a]; rw [← m2]; rfl
  · intro n hn
    -- the pair of `n` in the traversal
    have hpair : ∀ (fuel : ℕ) (cs : List String) (top hk : String),
        (∀ p ∈ dfsP src fuel cs hk, p.2 = hk ∨ p ∈ dfsP src fuel cs top) := by
      intro fuel
      induction fuel with
      | zero => intro cs top hk p hp; simp [dfsP] at hp
      | succ fuel _ =>
        intro cs top hk p hp
        simp only [dfsP, List.mem_flatMap, List.mem_cons] at hp ⊢
        obtain ⟨c, hc, rfl | hp⟩ := hp
        · exact Or.inl rfl
        · exact Or.inr ⟨c, hc, Or.inr hp⟩
    have htop : ∀ (fuel k : ℕ) (cs : List String) (hk : String), Above src k cs →
        (∀ c ∈ cs, ∀ e, src.find c = some e → e.parent = some src.root_name) →
        src.root_name ∉ dfs src fuel cs →
        ∀ p ∈ dfsP src fuel cs hk, ∃ e, src.find p.1 = some e ∧
          some p.2 = (if e.parent = some src.root_name then some hk else e.parent) := by
      intro fuel k cs hk hA hcs hnr p hp
      cases fuel with
      | zero => simp [dfsP] at hp
      | succ fuel =>
        simp only [dfsP, List.mem_flatMap, List.mem_cons] at hp
        obtain ⟨c, hc, rfl | hp⟩ := hp
        · obtain ⟨i, e, g1, g2, _⟩ := hA c hc
          have hf : src.find c = some e := by rw [← g2]; exact find_of_get hw.nodup g1
          exact ⟨e, hf, by rw [if_pos (hcs c hc e hf)]⟩
        · obtain ⟨e, he, hpar⟩ := dfsP_parent hw fuel 0 _ c (above_childrenOf hw c) (root_children_parent hw) p hp
          refine ⟨e, he, ?_⟩
          rw [hpar]
          have hne : p.2 ≠ src.root_name := by
            rcases hpair fuel _ src.root_name c p hp with hq | _
            · rw [hq]
              rintro rfl
              apply hnr
              simp only [dfs, List.mem_flatMap, List.mem_cons]
              exact ⟨_, hc, Or.inl rfl⟩
            · obtain ⟨a, b, hab⟩ := List.append_of_mem hp
              rcases dfsP_hook src fuel _ _ a b p hab with hq | hq
              · rw [hq]
                rintro rfl
                apply hnr
                simp only [dfs, List.mem_flatMap, List.mem_cons]
                exact ⟨_, hc, Or.inl rfl⟩
              · intro hq2
                apply hnr
                simp only [dfs, List.mem_flatMap, List.mem_cons]
                refine ⟨c, hc, Or.inr ?_⟩
                rw [← dfsP_fst src fuel _ c, hab, ← hq2]
                simp only [List.map_append, List.mem_append]
                exact Or.inl hq
          rw [if_neg (by simpa using hne)]
    have hn' : n ∈ (dfsP src src.segments.length (childrenOf src src.root_name) hook).map Prod.fst := by
      rw [dfsP_fst]; exact hn
    obtain ⟨p, hp, rfl⟩ := List.mem_map.mp hn'
    obtain ⟨e, he, hpar⟩ := htop _ 0 _ hook (above_childrenOf hw _) (root_children_parent hw)
      (List.nodup_cons.mp (hs.below_nodup _ hrn)).1 p hp
    obtain ⟨e', a, b, c⟩ := hfind (src.segOf p.1, some p.2) (by
      rw [k5]; exact List.mem_append_right _
        (List.mem_map_of_mem (f := fun x : String × String => (src.segOf x.1, some x.2)) hp))
    have hse : src.segOf p.1 = e.segment := by simp [segOf, he]
    refine ⟨e, e', he, ?_, by rw [b, hse], by rw [c, hpar]⟩
    rw [← a]
    simp only
    rw [hse]
    exact congrArg _ (find_some he).2.symm

/-- `getSubTree`: the result consists of the requested segment (now a fixed, massless root) and everything below it,
with unchanged segments and parents. -/
theorem C32_getSubTree {t : Tree} (h : t.Reach) (n : String) (dest : Tree) :
    (n ∉ t.names → t.getSubTree n dest = some (false, dest)) ∧
    (n ∈ t.names → ∃ t', t.getSubTree n dest = some (true, t') ∧ t'.Reach ∧ t'.root_name = n ∧
      t'.names = n :: t.below n ∧
      ∀ m ∈ t.below n, ∃ e e', t.find m = some e ∧ t'.find m = some e' ∧ e'.segment = e.segment ∧
        e'.parent = e.parent) := by
  have hw := h.wf
  constructor
  · intro hn
    simp [getSubTree, find_none.mpr hn]
  · intro hn
    obtain ⟨e, he⟩ := mem_names.mp hn
    have hco : childrenOf t n = e.children := by simp [childrenOf, he]
    have hnew : (new n).names = [n] := by simp [names, new, TreeElem.name, Segment.ofName]
    have hnd := h.below_nodup n hn
    obtain ⟨t', k1, k2, k3, k4, k5⟩ := graft (t := new n) h n n hn (by rw [hnew]; simp) (by
      intro x hx
      rw [hnew]
      simp only [List.mem_singleton]
      rintro rfl
      exact (List.nodup_cons.mp hnd).1 hx)
    have hR := k4 (.new n)
    refine ⟨t', ?_, hR, k3, by rw [k2, hnew]; rfl, ?_⟩
    · unfold getSubTree; rw [he]; simp only; rw [← hco]; exact k1
    · intro m hm
      have hm' : m ∈ (dfsP t t.segments.length (childrenOf t n) n).map Prod.fst := by rw [dfsP_fst]; exact hm
      obtain ⟨p, hp, rfl⟩ := List.mem_map.mp hm'
      obtain ⟨e, he, hpar⟩ := dfsP_parent hw _ 0 _ _ (above_childrenOf hw _) (root_children_parent hw) p hp
      have hse : t.segOf p.1 = e.segment := by simp [segOf, he]
      have hmem : (t.segOf p.1, some p.2) ∈ t'.table := by
        rw [k5]; exact List.mem_append_right _
          (List.mem_map_of_mem (f := fun x : String × String => (t.segOf x.1, some x.2)) hp)
      simp only [table, List.mem_map] at hmem
      obtain ⟨e', he', heq⟩ := hmem
      have h1 : e'.segment = t.segOf p.1 := congrArg Prod.fst heq
      have h2 : e'.parent = some p.2 := congrArg Prod.snd heq
      refine ⟨e, e', he, ?_, by rw [h1, hse], by rw [h2, hpar]⟩
      have := find_of_mem hR.wf.nodup he'
      rw [← this]
      unfold TreeElem.name
      rw [h1, hse]
      exact congrArg _ (find_some he).2.symm

/-- FULL PROPERTY "a copy of a tree numbers its joints like the original" fails: A and B under the root, then C under A.
In the original B and C have numbers 1 and 2, in every copy they are swapped. -/
theorem C32_copy_numbering_violated : ∃ t t' : Tree, t.Reach ∧ t.copy = some t' ∧
    (t.find "B").map TreeElem.q_nr = some 1 ∧ (t'.find "B").map TreeElem.q_nr = some 2 ∧
    (t.find "C").map TreeElem.q_nr = some 2 ∧ (t'.find "C").map TreeElem.q_nr = some 1 := by
  refine ⟨demo, ⟨[⟨Segment.ofName "r", 0, none, ["A", "B"]⟩, ⟨mv "A", 0, some "r", ["C"]⟩,
    ⟨mv "C", 1, some "A", []⟩, ⟨mv "B", 2, some "r", []⟩], 3, 3, "r"⟩, demo_reach, ?_, ?_, ?_, ?_, ?_⟩
  · rw [demo_eq]
    simp [copy, addTree, find, new, TreeElem.name, Segment.ofName, addTreeRec, addSegment, attach, mv, Segment.moving,
      Joint.moving]
  all_goals
    try rw [demo_eq]
    simp [find, TreeElem.name, Segment.ofName, mv]

/-- The partial property that does hold: numbers survive copying when segments were added depth first. -/
theorem C32_copy_numbering_partial {t t' : Tree} (h : t.Reach) (hd : t.names = t.dfsNames) (hc : t.copy = some t') :
    ∀ n, (t'.find n).map TreeElem.q_nr = (t.find n).map TreeElem.q_nr := by
  rw [(C32_copy_exact_iff h).mpr hd] at hc
  cases hc
  intro n; rfl

example : ∃ t', demo.copy = some t' ∧ t'.copy = some t' ∧ t'.nrOfJoints = 3 := by
  obtain ⟨t', k1, _, _, _, k5, _⟩ := C32_copy_structure demo_reach
  exact ⟨t', k1, C32_copy_idempotent demo_reach k1, by rw [k5, demo_eq]⟩

end Tree
end KDL
