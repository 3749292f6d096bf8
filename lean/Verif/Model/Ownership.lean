import Mathlib.Data.List.Nodup

/-! Memory of paths, velocity profiles and trajectories: which objects are created and deleted by constructors, destructors,
`Clone`, `Add` and `Read`. Numbers (frames, lengths, rates) are left out; where they decide whether a constructor throws, the
decision is a parameter. -/

namespace KDL.Mem

/-- Heap objects; a number is the address of another object. The flags are the `aggregate` members. -/
inductive Obj
  /-- `RotationalInterpolation_SingleAxis`, rotational_interpolation_sa.hpp:58. -/
  | orient
  /-- The velocity profiles; none of them holds a pointer. -/
  | profile
  /-- `Path_Point`, path_point.hpp:57. -/
  | point
  /-- `Path_Line`: `orient`, `aggregate`, path_line.hpp:59–76. -/
  | line (orient : ℕ) (aggregate : Bool)
  /-- `Path_Circle`: `orient`, `aggregate`, path_circle.hpp:59–78. -/
  | circle (orient : ℕ) (aggregate : Bool)
  /-- `Path_Composite`: `gv`, path_composite.hpp:61–64. -/
  | composite (gv : List (ℕ × Bool))
  /-- `Path_Cyclic_Closed`: `geom`, `aggregate`, path_cyclic_closed.hpp:62–64. -/
  | cyclic (geom : ℕ) (aggregate : Bool)
  /-- `Path_RoundedComposite`: `comp`, `orient`, `nrofpoints`, `aggregate`, path_roundedcomposite.hpp:63–75. -/
  | rounded (comp orient : ℕ) (nrofpoints : ℕ) (aggregate : Bool)
  /-- `Trajectory_Segment`: `motprof`, `geom`, `aggregate`, trajectory_segment.hpp:64–66. -/
  | segment (geom motprof : ℕ) (aggregate : Bool)
  /-- `Trajectory_Stationary`, trajectory_stationary.hpp:24. -/
  | stationary
  /-- `Trajectory_Composite`: `vt`, trajectory_composite.hpp:37–39. -/
  | trajComposite (vt : List ℕ)
  deriving DecidableEq, Repr

/-- The heap: `none` at an address where no object lives. Simplification: the addresses of deleted objects are not used
again. -/
structure Heap where
  obj : ℕ → Option Obj
  next : ℕ

/-- Nothing lives at addresses not handed out yet. -/
def Heap.WF (H : Heap) : Prop := ∀ x, H.next ≤ x → H.obj x = none

/-- Programs: `none` is undefined behaviour (or an endless recursion), `.error` an exception; the heap is kept in both other
cases. -/
def M (α : Type) : Type := Heap → Option (Except Unit α × Heap)

namespace M
variable {α β : Type}
def ret (a : α) : M α := fun H => some (.ok a, H)
/-- `throw`. -/
def raise : M α := fun H => some (.error (), H)
/-- Undefined behaviour. -/
def ub : M α := fun _ => none
def bind (m : M α) (f : α → M β) : M β := fun H =>
  match m H with
  | none => none
  | some (.ok a, H') => f a H'
  | some (.error e, H') => some (.error e, H')
/-- Stack unwinding: `cleanup` runs when `m` throws, then the exception goes on. -/
def onThrow (m : M α) (cleanup : M Unit) : M α := fun H =>
  match m H with
  | some (.error e, H') =>
    match cleanup H' with
    | some (_, H'') => some (.error e, H'')
    | none => none
  | r => r
end M

/-- `new`. -/
def alloc (o : Obj) : M ℕ := fun H => some (.ok H.next, ⟨fun x => if x = H.next then some o else H.obj x, H.next + 1⟩)
/-- Access to the object at an address; undefined if none lives there. -/
def get (p : ℕ) : M Obj := fun H => match H.obj p with | some o => some (.ok o, H) | none => none
/-- Change of the members of an object. -/
def put (p : ℕ) (o : Obj) : M Unit := fun H => some (.ok (), ⟨fun x => if x = p then some o else H.obj x, H.next⟩)
/-- Return of the memory of an object, undefined if it was returned before. -/
def free (p : ℕ) : M Unit := fun H =>
  match H.obj p with
  | some _ => some (.ok (), ⟨fun x => if x = p then none else H.obj x, H.next⟩)
  | none => none

/-- A loop over a list. -/
def forEach {α : Type} (f : α → M Unit) : List α → M Unit
  | [] => .ret ()
  | a :: as => (f a).bind fun _ => forEach f as

/-- Body of the destructor of each class, `del` being `delete`: path_line.cpp:149, path_circle.cpp:153, path_composite.cpp:153,
path_cyclic_closed.cpp:73, path_roundedcomposite.cpp:191, trajectory_segment.cpp:92, trajectory_composite.cpp:94, 102; the others
are empty. -/
def destructor (del : ℕ → M Unit) : Obj → M Unit
  | .line o agg => if agg then del o else .ret ()
  | .circle o agg => if agg then del o else .ret ()
  | .composite gv => forEach (fun it => if it.2 then del it.1 else .ret ()) gv
  | .cyclic g agg => if agg then del g else .ret ()
  | .rounded c o _ agg => (if agg then del o else .ret ()).bind fun _ => del c
  | .segment g m agg => if agg then (del m).bind fun _ => del g else .ret ()
  | .trajComposite vt => forEach del vt
  | .orient => .ret ()
  | .profile => .ret ()
  | .point => .ret ()
  | .stationary => .ret ()

/-- `delete p` with a virtual destructor; the first argument bounds the depth of the recursion. -/
def delete : ℕ → ℕ → M Unit
  | 0, _ => .ub
  | n + 1, p => (get p).bind fun o => (destructor (delete n) o).bind fun _ => free p

/-- Constructor of `Path_Circle`, path_circle.cpp:49–98: `throws` stands for the two checks of the geometry. The memory
obtained by `new` is returned by the language if the constructor throws. -/
def newCircle (n : ℕ) (throws : Bool) (o : ℕ) (agg : Bool) : M ℕ :=
  if throws then (if agg then delete n o else .ret ()).bind fun _ => .raise
  else alloc (.circle o agg)

/-- `Path_Composite::Add`, path_composite.cpp:82; asks the part for its length. -/
def compositeAdd (c g : ℕ) (agg : Bool) : M Unit :=
  (get c).bind fun oc => (get g).bind fun _ =>
    match oc with
    | .composite gv => put c (.composite (gv ++ [(g, agg)]))
    | _ => .ub
/-- `Trajectory_Composite::Add`, trajectory_composite.cpp:88; asks the part for its duration. -/
def trajAdd (c t : ℕ) : M Unit :=
  (get c).bind fun oc => (get t).bind fun _ =>
    match oc with
    | .trajComposite vt => put c (.trajComposite (vt ++ [t]))
    | _ => .ub
/-- `Trajectory_Composite::Destroy`, trajectory_composite.cpp:94. -/
def trajDestroy (n c : ℕ) : M Unit :=
  (get c).bind fun oc =>
    match oc with
    | .trajComposite vt => (forEach (delete n) vt).bind fun _ => put c (.trajComposite [])
    | _ => .ub

/-- Loop of `Path_Composite::Clone`, path_composite.cpp:115–117. -/
def cloneLoop (cl : ℕ → M ℕ) (c : ℕ) : List (ℕ × Bool) → M Unit
  | [] => .ret ()
  | it :: its => (cl it.1).bind fun g => (compositeAdd c g it.2).bind fun _ => cloneLoop cl c its
/-- Loop of `Trajectory_Composite::Clone`, trajectory_composite.cpp:118–120. -/
def trajCloneLoop (cl : ℕ → M ℕ) (c : ℕ) : List ℕ → M Unit
  | [] => .ret ()
  | t :: ts => (cl t).bind fun t' => (trajAdd c t').bind fun _ => trajCloneLoop cl c ts

/-- Two arguments of a constructor, in the order of evaluation chosen by the compiler. -/
def both {α β : Type} (firstSecond : Bool) (a : M α) (b : M β) : M (α × β) :=
  if firstSecond then a.bind fun x => b.bind fun y => .ret (x, y)
  else b.bind fun y => a.bind fun x => .ret (x, y)

/-- `Clone` of each class: rotational_interpolation_sa.cpp:83, the velocity profiles, path_point.cpp:73, path_line.cpp:153,
path_circle.cpp:140, path_composite.cpp:113, path_cyclic_closed.cpp:78, path_roundedcomposite.cpp:198, trajectory_segment.hpp:90,
trajectory_stationary.hpp:49, trajectory_composite.cpp:116. `bad p`: the constructor of the clone of the circle at `p` throws;
`ord`: order of evaluation of the arguments. `n` bounds the depth of the recursion. -/
def clone (ord : Bool) (bad : ℕ → Bool) : ℕ → ℕ → M ℕ
  | 0, _ => .ub
  | n + 1, p => (get p).bind fun obj =>
    match obj with
    | .orient => alloc .orient
    | .profile => alloc .profile
    | .point => alloc .point
    | .line o agg =>
      if agg then (clone ord bad n o).bind fun o' => alloc (.line o' true)
      else (get o).bind fun _ => alloc (.line o false)
    | .circle o agg => (clone ord bad n o).bind fun o' => newCircle n (bad p) o' agg
    | .composite gv =>
      (alloc (.composite [])).bind fun c =>
        ((cloneLoop (clone ord bad n) c gv).onThrow (delete n c)).bind fun _ => .ret c
    | .cyclic g agg => (clone ord bad n g).bind fun g' => alloc (.cyclic g' agg)
    | .rounded c o k _ =>
      (both ord (clone ord bad n c) (clone ord bad n o)).bind fun co => alloc (.rounded co.1 co.2 k true)
    | .segment g m agg =>
      if agg then (both ord (clone ord bad n g) (clone ord bad n m)).bind fun gm => alloc (.segment gm.1 gm.2 true)
      else alloc (.segment g m false)
    | .stationary => alloc .stationary
    | .trajComposite vt =>
      (alloc (.trajComposite [])).bind fun c => (trajCloneLoop (clone ord bad n) c vt).bind fun _ => .ret c

/-- The copy constructors and assignments generated by the compiler copy the pointers (no class of paths or trajectories
declares its own). -/
def copyConstruct (p : ℕ) : M ℕ := (get p).bind alloc

/-- Constructor of `Path_RoundedComposite`, path_roundedcomposite.cpp:61–68; `eqneg`: `eqradius <= 0`. -/
def newRounded (eqneg : Bool) (o : ℕ) (agg : Bool) : M ℕ :=
  (alloc (.composite [])).bind fun c => if eqneg then .raise else alloc (.rounded c o 0 agg)

/-- What a further point means for `Path_RoundedComposite::Add`, path_roundedcomposite.cpp:70–137 (from the third point on). -/
inductive Corner
  /-- Error_MotionPlanning_Not_Feasible 2–6. -/
  | infeasible
  /-- Parallel segments: one line. -/
  | straight
  /-- Line and circle; `true`: the constructor of the circle throws. -/
  | round (circleThrows : Bool)

/-- `new Path_Line(…, orient->Clone(), eqradius)`. -/
def newLine (ord : Bool) (n o : ℕ) : M ℕ := (clone ord (fun _ => false) n o).bind fun o' => alloc (.line o' true)

/-- `Path_RoundedComposite::Add`, path_roundedcomposite.cpp:70. -/
def roundedAdd (ord : Bool) (n r : ℕ) (k : Corner) : M Unit :=
  (get r).bind fun obj =>
    match obj with
    | .rounded c o np agg =>
      (if np < 2 then M.ret () else
        match k with
        | .infeasible => .raise
        | .straight => (newLine ord n o).bind fun l => compositeAdd c l true
        | .round circleThrows =>
          (newLine ord n o).bind fun l1 => (newLine ord n o).bind fun l2 =>
            (((newLine ord n o).bind fun l => (compositeAdd c l true).bind fun _ =>
              (clone ord (fun _ => false) n o).bind fun o' => (newCircle n circleThrows o' true).bind fun ci =>
              compositeAdd c ci true).onThrow ((delete n l2).bind fun _ => delete n l1)).bind fun _ =>
            (delete n l2).bind fun _ => delete n l1).bind fun _ =>
        put r (.rounded c o (np + 1) agg)
    | _ => .ub

/-- `Path_RoundedComposite::Finish`, path_roundedcomposite.cpp:139. -/
def roundedFinish (ord : Bool) (n r : ℕ) : M Unit :=
  (get r).bind fun obj =>
    match obj with
    | .rounded c o np _ => if 1 ≤ np then (newLine ord n o).bind fun l => compositeAdd c l true else .ret ()
    | _ => .ub

/-- The input of `Path::Read` as far as it matters for the memory: the flags say whether the reads before the orientation
(`pre`), the orientation (`ori`) and the reads after it (`post`) succeed; they throw if not. -/
inductive In
  /-- No known word: an exception. -/
  | unknown
  | point (pre : Bool)
  | line (pre ori post : Bool)
  | circle (pre ori post : Bool) (circleThrows : Bool)
  /-- `none` in the list: reading the frame throws. -/
  | rounded (pre ori : Bool) (eqneg : Bool) (size : Bool) (points : List (Option Corner)) (post : Bool)
  | composite (size : Bool) (parts : List In) (post : Bool)
  | cyclic (part : In) (post : Bool)

/-- A step that throws unless its flag is set. -/
def step (ok : Bool) : M Unit := if ok then .ret () else .raise

/-- Loop of path.cpp:128–132. -/
def readPoints (ord : Bool) (n r : ℕ) : List (Option Corner) → M Unit
  | [] => .ret ()
  | none :: _ => .raise
  | some k :: ks => (roundedAdd ord n r k).bind fun _ => readPoints ord n r ks

mutual
/-- `Path::Read`, path.cpp:60. A `scoped_ptr` deletes its object when an exception leaves its block. -/
def read (ord : Bool) (n : ℕ) : In → M ℕ
  | .unknown => .raise
  | .point pre => (step pre).bind fun _ => alloc .point
  | .line pre ori post =>
    (step pre).bind fun _ => (step ori).bind fun _ => (alloc .orient).bind fun o =>
      ((step post).onThrow (delete n o)).bind fun _ => alloc (.line o true)
  | .circle pre ori post ct =>
    (step pre).bind fun _ => (step ori).bind fun _ => (alloc .orient).bind fun o =>
      ((step post).onThrow (delete n o)).bind fun _ => newCircle n ct o true
  | .rounded pre ori eqneg size points post =>
    (step pre).bind fun _ => (step ori).bind fun _ => (alloc .orient).bind fun o =>
      (newRounded eqneg o true).bind fun r =>
        (((step size).bind fun _ => (readPoints ord n r points).bind fun _ => (roundedFinish ord n r).bind fun _ =>
          step post).onThrow (delete n r)).bind fun _ => .ret r
  | .composite size parts post =>
    (alloc (.composite [])).bind fun c =>
      (((step size).bind fun _ => (readParts ord n c parts).bind fun _ => step post).onThrow (delete n c)).bind fun _ => .ret c
  | .cyclic part post =>
    (read ord n part).bind fun g => ((step post).onThrow (delete n g)).bind fun _ => alloc (.cyclic g true)
/-- Loop of path.cpp:144–146. -/
def readParts (ord : Bool) (n c : ℕ) : List In → M Unit
  | [] => .ret ()
  | i :: is => (read ord n i).bind fun g => (compositeAdd c g true).bind fun _ => readParts ord n c is
end

/-- `Trajectory::Read`, trajectory.cpp:56–74: `word`, `prof`, `post` say whether the word is `SEGMENT`, and whether
`VelocityProfile::Read` and the end succeed. -/
def readTraj (ord : Bool) (n : ℕ) (word : Bool) (path : In) (prof post : Bool) : M ℕ :=
  (step word).bind fun _ => (read ord n path).bind fun g =>
    ((step prof).bind fun _ => (alloc .profile).bind fun m =>
      ((step post).onThrow (delete n m)).bind fun _ => M.ret m).onThrow (delete n g) |>.bind fun m =>
        alloc (.segment g m true)

end KDL.Mem
