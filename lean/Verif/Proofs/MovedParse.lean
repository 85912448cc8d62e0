import Verif.Proofs.Moved
import Verif.Proofs.UnifiedDiff
/-
Moving objects: the parser.
-/
namespace KompareDiff2
open Spec

/-- States of the parser, moved. -/
structure MovedP (a : Nat) (s s' : PState) : Prop where
  lines : s'.lines = s.lines
  rest : s'.rest = s.rest
  heap : HeapMoved a s.heap s'.heap
  cur : s'.cur = moveModel a s.cur
  uses : Uses s.heap.next s.cur
  models : s'.models = s.models.map (moveModel a)
  modelsUse : ∀ m ∈ s.models, Uses s.heap.next m
  single : s'.single = s.single
  malformed : s'.malformed = s.malformed

/-- A model without objects is the same everywhere. -/
structure NoRefs (m : DModel) : Prop where
  hunks : m.hunks = []
  differences : m.differences = []
  selected : m.selected = none
  connected : m.connected = []

theorem NoRefs.move {m : DModel} (p : NoRefs m) (a : Nat) : moveModel a m = m := by
  cases m
  obtain ⟨p1, p2, p3, p4⟩ := p
  dsimp only at p1 p2 p3 p4
  subst p1 p2 p3 p4
  rfl

theorem NoRefs.uses {m : DModel} (p : NoRefs m) (n : Nat) : Uses n m :=
  ⟨by rw [p.differences]; simp, by rw [p.hunks]; simp, by rw [p.selected]; simp⟩

theorem plain_new (x y : Str) : NoRefs (DModel.new x y) := ⟨rfl, rfl, rfl, rfl⟩
theorem plain_newModel (x y z u v w : Str) : NoRefs (newModel x y z u v w) := ⟨rfl, rfl, rfl, rfl⟩

theorem MovedP.header {a : Nat} {s s' : PState} (w : MovedP a s s') (r : List Str) {m : DModel} (p : NoRefs m) :
    MovedP a { s with rest := r, cur := m } { s' with rest := r, cur := m } :=
  ⟨w.lines, rfl, w.heap, (p.move a).symm, p.uses _, w.models, w.modelsUse, w.single, w.malformed⟩

theorem MovedP.at {a : Nat} {s s' : PState} (w : MovedP a s s') (r : List Str) : MovedP a { s with rest := r } { s' with rest := r } :=
  ⟨w.lines, rfl, w.heap, w.cur, w.uses, w.models, w.modelsUse, w.single, w.malformed⟩

/-- The result of a header function, moved. -/
def MovedH (a : Nat) (x y : PState × Bool) : Prop := MovedP a x.1 y.1 ∧ y.2 = x.2

theorem move_twoLine {a : Nat} (h1 h2 : Re) (mk : Caps → Caps → DModel) (hm : ∀ c d, NoRefs (mk c d)) {s s' : PState} (w : MovedP a s s')
    (ls : List Str) : Agree (MovedH a) (twoLineHeader h1 h2 mk s ls) (twoLineHeader h1 h2 mk s' ls) := by
  induction ls with
  | nil => exact ⟨w.at [], rfl⟩
  | cons l ls ih =>
    rw [twoLineHeader, twoLineHeader]
    cases h1.full l with
    | none => exact ih
    | some c1 =>
      cases ls with
      | nil => exact trivial
      | cons l2 ls2 =>
        dsimp only
        cases h2.full l2 with
        | none => exact ⟨w.at _, rfl⟩
        | some c2 => exact ⟨w.header _ (hm _ _), rfl⟩

theorem plain_p4 (c : Caps) : NoRefs (p4Model c) := ⟨rfl, rfl, rfl, rfl⟩

theorem move_p4 {a : Nat} {s s' : PState} (w : MovedP a s s') (ls : List Str) : MovedH a (p4Header s ls) (p4Header s' ls) := by
  induction ls with
  | nil => exact ⟨w.at [], rfl⟩
  | cons l ls ih =>
    rw [p4Header, p4Header]
    cases reP4Header.full l with
    | none => exact ih
    | some c => exact ⟨w.header _ (plain_p4 c), rfl⟩

theorem move_contextHeader {a : Nat} (win : Bool) (g : Generator) {s s' : PState} (w : MovedP a s s') :
    Agree (MovedH a) (parseContextDiffHeader win g s) (parseContextDiffHeader win g s') := by
  unfold parseContextDiffHeader
  rw [w.rest]
  cases g <;> first | exact move_p4 w _ | exact move_twoLine _ _ _ (fun _ _ => plain_newModel ..) w _

theorem move_unifiedHeader {a : Nat} (win : Bool) (g : Generator) {s s' : PState} (w : MovedP a s s') :
    Agree (MovedH a) (parseUnifiedDiffHeader win g s) (parseUnifiedDiffHeader win g s') := by
  unfold parseUnifiedDiffHeader
  rw [w.rest]
  cases g <;> first | exact move_p4 w _ | exact move_twoLine _ _ _ (fun _ _ => plain_newModel ..) w _

theorem plain_normalLoop (h : Re) (mk : Caps → DModel) (hm : ∀ c, NoRefs (mk c)) (ls : List Str) {r : DModel × List Str}
    (hr : normalHeaderLoop h mk ls = some r) : NoRefs r.1 := by
  induction ls with
  | nil => cases hr
  | cons l ls ih =>
    rw [normalHeaderLoop] at hr
    cases e : h.full l with
    | none => rw [e] at hr; exact ih hr
    | some c => rw [e] at hr; cases hr; exact hm c

theorem MovedP.single_file {a : Nat} {s s' : PState} (w : MovedP a s s') :
    MovedH a ({ s with rest := s.lines, cur := {}, single := true }, false) ({ s' with rest := s'.lines, cur := {}, single := true }, false) :=
  ⟨⟨w.lines, w.lines, w.heap, ((⟨rfl, rfl, rfl, rfl⟩ : NoRefs {}).move a).symm, (⟨rfl, rfl, rfl, rfl⟩ : NoRefs {}).uses _, w.models,
    w.modelsUse, rfl, w.malformed⟩, rfl⟩

theorem move_normalHeader {a : Nat} (win : Bool) (g : Generator) {s s' : PState} (w : MovedP a s s') :
    MovedH a (parseNormalDiffHeader win g s) (parseNormalDiffHeader win g s') := by
  unfold parseNormalDiffHeader
  rw [w.rest]
  cases g
  case Perforce => exact move_p4 w _
  all_goals
    dsimp only
    split
    · rename_i m ls e
      exact ⟨w.header _ (plain_normalLoop _ _ (fun c => plain_new ..) _ e), rfl⟩
    · exact w.single_file

theorem move_addDiffs {a n : Nat} (l : List (Nat × Bool)) (hl : ∀ p ∈ l, p.1 < n) {m : DModel} (u : Uses n m) :
    (l.map (fun p => (p.1 + a, p.2))).foldl (fun m p => m.addDiff p.1) (moveModel a m) = moveModel a (l.foldl (fun m p => m.addDiff p.1) m) ∧
    Uses n (l.foldl (fun m p => m.addDiff p.1) m) := by
  induction l generalizing m with
  | nil => exact ⟨rfl, u⟩
  | cons p l ih =>
    have u1 : Uses n (m.addDiff p.1) := by
      refine ⟨fun i hi => ?_, u.hunks, u.selected⟩
      rcases List.mem_append.1 hi with q | q
      · exact u.differences i q
      · cases List.mem_singleton.1 q; exact hl p (by simp)
    have e : (moveModel a m).addDiff (p.1 + a) = moveModel a (m.addDiff p.1) := by
      unfold DModel.addDiff moveModel
      dsimp only
      rw [List.map_append, List.map_append]; rfl
    rw [List.map_cons, List.foldl_cons, List.foldl_cons]
    dsimp only
    rw [e]
    exact ih (fun q hq => hl q (List.mem_cons_of_mem _ hq)) u1

theorem move_addHunk {a : Nat} {s s' : PState} (w : MovedP a s s') (x y : Int) (f : Str) (es : Entries) (r : List Str) :
    MovedP a { (s.addHunk x y f es) with rest := r } { (s'.addHunk x y f es) with rest := r } := by
  obtain ⟨q1, q2⟩ := w.heap.allocAll (es.map Prod.fst)
  have hn : s.heap.next ≤ (s.heap.allocAll (es.map Prod.fst)).2.next := by rw [Heap.allocAll_next]; exact Nat.le_add_right _ _
  have hids := mem_allocAll s.heap (es.map Prod.fst)
  have u0 : Uses (s.heap.allocAll (es.map Prod.fst)).2.next
      (s.cur.addHunk { sourceLine := x, destLine := y, function := f, diffs := (s.heap.allocAll (es.map Prod.fst)).1 }) := by
    refine ⟨(w.uses.mono hn).differences, fun k hk i hi => ?_, (w.uses.mono hn).selected⟩
    rcases List.mem_append.1 hk with q | q
    · exact (w.uses.mono hn).hunks k q i hi
    · cases List.mem_singleton.1 q; exact hids i hi
  have key := move_addDiffs (a := a) (((s.heap.allocAll (es.map Prod.fst)).1.zip (es.map Prod.snd)).filter (fun p => p.2))
    (fun p hp => hids p.1 (List.of_mem_zip (List.mem_filter.1 hp).1).1) u0
  refine ⟨w.lines, rfl, q2, ?_, key.2, w.models, fun m hm => (w.modelsUse m hm).mono hn, w.single, w.malformed⟩
  show ((((s'.heap.allocAll (es.map Prod.fst)).1.zip (es.map Prod.snd)).filter (fun p => p.2)).foldl (fun m p => m.addDiff p.1)
    (s'.cur.addHunk { sourceLine := x, destLine := y, function := f, diffs := (s'.heap.allocAll (es.map Prod.fst)).1 })) = _
  rw [q1, w.cur]
  have e1 : (moveModel a s.cur).addHunk (Hunk.mk x y f .Normal ((s.heap.allocAll (es.map Prod.fst)).1.map (· + a))) =
      moveModel a (s.cur.addHunk (Hunk.mk x y f .Normal (s.heap.allocAll (es.map Prod.fst)).1)) := by
    unfold DModel.addHunk moveModel
    dsimp only
    rw [List.map_append]; rfl
  have e2 : (((s.heap.allocAll (es.map Prod.fst)).1.map (· + a)).zip (es.map Prod.snd)).filter (fun p => p.2) =
      (((s.heap.allocAll (es.map Prod.fst)).1.zip (es.map Prod.snd)).filter (fun p => p.2)).map (fun p => (p.1 + a, p.2)) := by
    rw [List.zip_map_left, List.filter_map]; rfl
  rw [e1, e2]
  exact key.1

/-- The result of a hunk function, moved. -/
def MovedO (a : Nat) : Option PState → Option PState → Prop
  | none, none => True
  | some x, some y => MovedP a x y
  | _, _ => False

theorem move_unifiedHunk {a : Nat} {s s' : PState} (w : MovedP a s s') : Agree (MovedO a) (parseUnifiedHunk s) (parseUnifiedHunk s') := by
  unfold parseUnifiedHunk
  rw [w.rest]
  cases s.rest with
  | nil => exact trivial
  | cons l ls =>
    dsimp only
    cases reUnifiedHunkHeader.full l with
    | none => exact trivial
    | some c =>
      dsimp only
      cases unifiedHeaderValues c with
      | none => exact w.at ls
      | some u =>
        refine (Agree.eq (x := unifiedBodyLoop (ls.length + 1) ls u.a u.b u.countA u.countB)).bind fun r _ e => ?_
        subst e
        exact move_addHunk w _ _ _ _ _

theorem move_normalHunk {a : Nat} {s s' : PState} (w : MovedP a s s') : Agree (MovedO a) (parseNormalHunk s) (parseNormalHunk s') := by
  unfold parseNormalHunk
  rw [w.rest]
  cases s.rest with
  | nil => exact trivial
  | cons l ls =>
    dsimp only
    cases normalHunkHeader l with
    | none => exact trivial
    | some c => exact move_addHunk w _ _ _ _ _

theorem move_hunkLoop {a : Nat} {hunk : PState → Res (Option PState)} (hh : ∀ s s', MovedP a s s' → Agree (MovedO a) (hunk s) (hunk s'))
    (n : Nat) {s s' : PState} (w : MovedP a s s') : Agree (MovedP a) (hunkLoop hunk n s) (hunkLoop hunk n s') := by
  induction n generalizing s s' with
  | zero => exact trivial
  | succ n ih =>
    rw [hunkLoop, hunkLoop]
    refine (hh s s' w).bind fun x y e => ?_
    cases x <;> cases y <;> first | exact False.elim e | exact w | exact ih e

theorem move_contextHunk {a : Nat} {s s' : PState} (w : MovedP a s s') :
    Agree (fun x y => MovedO a x.1 y.1 ∧ MovedP a x.2 y.2) (parseContextHunk s) (parseContextHunk s') := by
  unfold parseContextHunk
  rw [w.rest]
  rcases contextHunkHeader s.rest with ⟨_ | ⟨c1, c2⟩, ls⟩
  · exact ⟨trivial, w.at ls⟩
  · dsimp only
    cases (contextLines ls).2 with
    | nil => exact trivial
    | cons l ls2 =>
      dsimp only
      cases reContextHunkHeader3.full l with
      | none => exact ⟨w.at _, w⟩
      | some c3 =>
        dsimp only
        refine (Agree.eq (x := contextBodyLoop _ _ _ _ _)).bind fun r _ e => ?_
        subst e
        exact ⟨move_addHunk w _ _ _ _ _, w⟩

theorem move_contextLoop {a : Nat} (n : Nat) {s s' : PState} (w : MovedP a s s') : Agree (MovedP a) (contextHunkLoop n s) (contextHunkLoop n s') := by
  induction n generalizing s s' with
  | zero => exact trivial
  | succ n ih =>
    rw [contextHunkLoop, contextHunkLoop]
    refine (move_contextHunk w).bind fun x y e => ?_
    obtain ⟨x1, x2⟩ := x
    obtain ⟨y1, y2⟩ := y
    obtain ⟨e1, e2⟩ := e
    cases x1 <;> cases y1 <;> first | exact False.elim e1 | exact e2 | exact ih e1

theorem move_check {a : Nat} (h : Re) {s s' : PState} (w : MovedP a s s') : MovedP a (checkHeader h s) (checkHeader h s') := by
  unfold checkHeader
  rw [w.rest]
  cases s.rest with
  | nil => exact w
  | cons l ls =>
    dsimp only
    split
    · exact w
    · exact ⟨w.lines, rfl, w.heap, w.cur, w.uses, w.models, w.modelsUse, w.single, rfl⟩

theorem move_keep {a : Nat} {s s' : PState} (w : MovedP a s s') : MovedP a s.keepModel s'.keepModel := by
  unfold PState.keepModel
  have hl : s'.cur.differences.length = s.cur.differences.length := by rw [w.cur]; exact List.length_map ..
  rw [hl]
  split
  · refine ⟨w.lines, w.rest, w.heap, w.cur, w.uses, ?_, ?_, w.single, w.malformed⟩
    · dsimp only
      rw [List.map_append, w.models, w.cur]; rfl
    · intro m hm
      rcases List.mem_append.1 hm with q | q
      · exact w.modelsUse m q
      · cases List.mem_singleton.1 q; exact w.uses
  · exact w

theorem move_fileLoop {a : Nat} {header : PState → Res (PState × Bool)} {hunks : PState → Res PState} (check : Re)
    (h1 : ∀ s s', MovedP a s s' → Agree (MovedH a) (header s) (header s')) (h2 : ∀ s s', MovedP a s s' → Agree (MovedP a) (hunks s) (hunks s'))
    (n : Nat) {s s' : PState} (w : MovedP a s s') : Agree (MovedP a) (fileLoop header hunks check n s) (fileLoop header hunks check n s') := by
  induction n generalizing s s' with
  | zero => exact trivial
  | succ n ih =>
    rw [fileLoop, fileLoop]
    refine (h1 s s' w).bind fun x y e => ?_
    rw [e.2]
    split
    · exact e.1
    · exact (h2 _ _ e.1).bind fun u v q => ih (move_check check (move_keep q))

theorem move_unifiedHunks {a : Nat} {s s' : PState} (w : MovedP a s s') : Agree (MovedP a) (unifiedHunks s) (unifiedHunks s') := by
  unfold unifiedHunks; rw [w.rest]; exact move_hunkLoop (fun _ _ => move_unifiedHunk) _ w
theorem move_normalHunks {a : Nat} {s s' : PState} (w : MovedP a s s') : Agree (MovedP a) (normalHunks s) (normalHunks s') := by
  unfold normalHunks; rw [w.rest]; exact move_hunkLoop (fun _ _ => move_normalHunk) _ w
theorem move_contextHunks {a : Nat} {s s' : PState} (w : MovedP a s s') : Agree (MovedP a) (contextHunks s) (contextHunks s') := by
  unfold contextHunks; rw [w.rest]; exact move_contextLoop _ w

theorem move_insert {a : Nat} (cmp : Str → Str → Int) (m : DModel) (l : List DModel) :
    insertModel (fun a b => decide (DModel.compareSource cmp a b < 0)) (moveModel a m) (l.map (moveModel a)) =
      (insertModel (fun a b => decide (DModel.compareSource cmp a b < 0)) m l).map (moveModel a) := by
  induction l with
  | nil => rfl
  | cons x l ih =>
    rw [List.map_cons, insertModel, insertModel, ih]
    have : DModel.compareSource cmp (moveModel a m) (moveModel a x) = DModel.compareSource cmp m x := rfl
    rw [this]
    split <;> rfl

theorem move_sort {a : Nat} (cmp : Str → Str → Int) (l : List DModel) : sortModels cmp (l.map (moveModel a)) = (sortModels cmp l).map (moveModel a) := by
  unfold sortModels
  have : ∀ (acc : List DModel), (l.map (moveModel a)).foldl
      (fun acc m => insertModel (fun a b => decide (DModel.compareSource cmp a b < 0)) m acc) (acc.map (moveModel a)) =
      (l.foldl (fun acc m => insertModel (fun a b => decide (DModel.compareSource cmp a b < 0)) m acc) acc).map (moveModel a) := by
    induction l with
    | nil => intro acc; rfl
    | cons x l ih => intro acc; rw [List.map_cons, List.foldl_cons, List.foldl_cons, move_insert, ih]
  exact this []

/-- The results of the parser, moved. -/
structure MovedR (a : Nat) (r r' : ParseResult) : Prop where
  models : r'.models = r.models.map (List.map (moveModel a))
  uses : ∀ m ∈ r.models.getD [], Uses r.heap.next m
  malformed : r'.malformed = r.malformed
  heap : HeapMoved a r.heap r'.heap

theorem move_finish {a : Nat} (cmp : Str → Str → Int) {s s' : PState} (w : MovedP a s s') : MovedR a (finishParse cmp s) (finishParse cmp s') := by
  unfold finishParse
  rw [w.models, List.length_map, move_sort]
  refine ⟨?_, ?_, w.malformed, w.heap⟩
  · dsimp only
    split <;> rfl
  · dsimp only
    split
    · intro m hm
      exact w.modelsUse m ((sortModels_perm cmp s.models).mem_iff.1 hm)
    · simp

theorem move_parse {a : Nat} (win : Bool) (cmp : Str → Str → Int) (lines : List Str) {h h' : Heap} (w : HeapMoved a h h') :
    Agree (MovedR a) (parse win cmp h lines) (parse win cmp h' lines) := by
  unfold parse
  refine (Agree.eq (x := cleanUpCrap lines)).bind fun ls _ e => ?_
  subst e
  unfold parseLines
  have w0 : MovedP a { lines := ls, rest := ls, heap := h, cur := {}, models := [], single := false, malformed := false }
      { lines := ls, rest := ls, heap := h', cur := {}, models := [], single := false, malformed := false } :=
    ⟨rfl, rfl, w, rfl, (⟨rfl, rfl, rfl, rfl⟩ : NoRefs {}).uses _, rfl, fun _ q => (by cases q), rfl, rfl⟩
  generalize determineGenerator lines = g
  have hn : Agree (MovedR a) (Res.ok { models := none, malformed := false, heap := h }) (Res.ok { models := none, malformed := false, heap := h' }) :=
    ⟨rfl, by simp, rfl, w⟩
  cases determineFormat g ls
  case Context =>
    exact (move_fileLoop _ (fun _ _ => move_contextHeader win g) (fun _ _ => move_contextHunks) _ w0).bind fun _ _ q => move_finish cmp q
  case Unified =>
    exact (move_fileLoop _ (fun _ _ => move_unifiedHeader win g) (fun _ _ => move_unifiedHunks) _ w0).bind fun _ _ q => move_finish cmp q
  case Normal =>
    refine Agree.bind (R := MovedP a) ?_ fun _ _ q => move_finish cmp q
    unfold normalFiles
    refine (move_fileLoop _ (fun _ _ q => ?_) (fun _ _ => move_normalHunks) _ w0).bind fun x y q => ?_
    · exact move_normalHeader win g q
    · rw [q.single]
      split
      · refine (move_normalHunks q).bind fun x y q => ?_
        have q2 := move_keep q
        dsimp only
        rw [q2.rest]
        show MovedP a _ _
        split
        · exact ⟨q2.lines, rfl, q2.heap, q2.cur, q2.uses, q2.models, q2.modelsUse, q2.single, rfl⟩
        · exact q2
      · exact q
  all_goals exact hn

end KompareDiff2
