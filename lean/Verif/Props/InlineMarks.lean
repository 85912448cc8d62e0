import Verif.Proofs.InlineAgain
import Verif.Proofs.InlineParse
import Verif.Props.ParserSound
import Verif.Props.LinesChanged
/-
Property theorems about the markers inside the lines of a difference: C49.
-/
namespace KompareDiff2
open Spec

/-- **C49.** `determineInlineDifferences` on a difference without markers: it changes nothing but the markers, and these are as specified
(Spec/InlineMarks.lean): a change with as many old as new lines is marked pair by pair, anything else is left unmarked. -/
theorem C49_difference (d : Diff) (hm : NoMarks d) (hs : ∀ x ∈ d.source ++ d.dest, x.string.length < 65535) :
    ∃ d', d.determineInline = Res.ok d' ∧ d'.bare = d.bare ∧ Marked d'.type (shownLines d'.source) (shownLines d'.dest) := by
  have hp : d.Plain := by
    refine ⟨fun x hx => ?_, fun x hx => ?_⟩
    · exact hm (x.string, x.markers) (List.mem_append_left _ (List.mem_map.2 ⟨x, hx, rfl⟩))
    · exact hm (x.string, x.markers) (List.mem_append_right _ (List.mem_map.2 ⟨x, hx, rfl⟩))
  have hf : d.Fresh := ⟨fun x hx => ⟨hp.1 x hx, hs x (List.mem_append_left _ hx)⟩, fun x hx => ⟨hp.2 x hx, hs x (List.mem_append_right _ hx)⟩⟩
  obtain ⟨d', h, hb⟩ := determineInline_ok hf
  refine ⟨d', h, hb, determineInline_marked hp h ?_⟩
  have h1 : d'.source.map DStr.bare = d.source.map DStr.bare := congrArg Diff.source hb
  have h2 : d'.dest.map DStr.bare = d.dest.map DStr.bare := congrArg Diff.dest hb
  intro x hx
  rcases List.mem_append.1 hx with hx | hx
  · have : x.string ∈ d.source.map DStr.string := by rw [← bare_text h1]; exact List.mem_map.2 ⟨x, hx, rfl⟩
    obtain ⟨y, hy, e⟩ := List.mem_map.1 this
    rw [← e]; exact hs y (List.mem_append_left _ hy)
  · have : x.string ∈ d.dest.map DStr.string := by rw [← bare_text h2]; exact List.mem_map.2 ⟨x, hx, rfl⟩
    obtain ⟨y, hy, e⟩ := List.mem_map.1 this
    rw [← e]; exact hs y (List.mem_append_right _ hy)

/-- **C49.** Every difference of every model returned for a unified or context diff is marked as specified, whatever the input. -/
theorem C49_parsed (win : Bool) (cmp : Str → Str → Int) (g : Generator) (heap : Heap) (lines : List Str) (r : ParseResult)
    (ms : List DModel) (hf : determineFormat g lines ≠ .Normal) (h : parseLines win cmp g heap lines = Res.ok r)
    (hm : r.models = some ms) : ∀ m ∈ ms, ∀ k ∈ m.hunks, ∀ i ∈ k.diffs, InlineMarked (r.heap.cell i) := by
  intro m hmem k hk i hi
  have hs := parseLines_sound h ms hm
  have hi' : i ∈ m.hunkIds := List.mem_flatMap.2 ⟨k, hk, hi⟩
  have := (parseLines_cells h).2 i (hs.fresh m hmem i hi') ((hs.each m hmem).1.alloc i hi')
  cases e : determineFormat g lines <;> rw [e] at this <;> first | exact this | exact absurd e hf

/-- **C49, defect.** The differences of a normal diff are never marked, although they are changes like any other. -/
theorem C49_normal_unmarked_defect (win : Bool) (cmp : Str → Str → Int) (g : Generator) (heap : Heap) (lines : List Str) (r : ParseResult)
    (ms : List DModel) (hf : determineFormat g lines = .Normal) (h : parseLines win cmp g heap lines = Res.ok r)
    (hm : r.models = some ms) : ∀ m ∈ ms, ∀ k ∈ m.hunks, ∀ i ∈ k.diffs, NoMarks (r.heap.cell i) := by
  intro m hmem k hk i hi
  have hs := parseLines_sound h ms hm
  have hi' : i ∈ m.hunkIds := List.mem_flatMap.2 ⟨k, hk, hi⟩
  have := (parseLines_cells h).2 i (hs.fresh m hmem i hi') ((hs.each m hmem).1.alloc i hi')
  rw [hf] at this
  exact this

theorem linesChanged_marked {hash : Str → Nat} {ds : List Diff} {old new : List Str} {e : Int} {r : LCResult}
    (h : KompareDiff2.linesChanged hash ds old new e = Res.ok r) : ∀ d ∈ r.inserted, InlineMarked d := by
  unfold KompareDiff2.linesChanged at h
  split at h
  · simp only [Res.ok.injEq] at h; rw [← h]; simp
  · simp only [Res.bind_eq_ok, Res.ok.injEq] at h
    obtain ⟨blocks, _, ins, hi, h⟩ := h
    rw [← h]
    unfold lcInserted at hi
    obtain ⟨t, _, hi⟩ := Res.bind_eq_ok.1 hi
    obtain ⟨mk, _, hi⟩ := Res.bind_eq_ok.1 hi
    exact lcMarkerLoop_marked hi

/-- **C49.** So is every difference created by an interactive edit. -/
theorem C49_edited (hash : Str → Nat) (m m' : DModel) (h h' : Heap) (old new : List Str) (e : Int) (ins rem : List Nat)
    (hv : m.Valid h) (hr : m.linesChanged hash h old new e = Res.ok (m', h', ins, rem)) : ∀ i ∈ ins, InlineMarked (h'.cell i) := by
  have hr' := hr
  unfold DModel.linesChanged at hr'
  rw [Res.bind_eq_ok] at hr'
  obtain ⟨r, hr', _⟩ := hr'
  obtain ⟨m1, h1, ins1, rem1, pre, post, h2, _, _, _, _, _, _, _, _, _, _, hins, _⟩ := DModel.linesChanged_heap hv hr'
  rw [hr] at h2
  cases h2
  intro i hi
  exact linesChanged_marked hr' _ (by rw [← hins]; exact List.mem_map.2 ⟨i, hi, rfl⟩)

/-- **C49, a second time.** Marking a difference that is already marked puts every marker into the lists once more (unless a list begins
with an `End` marker, as it does when the first character is replaced, see C05): the lists are never cleared. -/
theorem C49_again (d d' : Diff) (hm : NoMarks d) (h : d.determineInline = Res.ok d')
    (hn : ∀ x ∈ shownLines d'.source ++ shownLines d'.dest, ∀ m, x.2.head? = some m → m.type = .Start) :
    ∃ d'', d'.determineInline = Res.ok d'' ∧ shownLines d''.source = (shownLines d'.source).map (fun x => (x.1, x.2 ++ x.2)) ∧
      shownLines d''.dest = (shownLines d'.dest).map (fun x => (x.1, x.2 ++ x.2)) := by
  have hs : ∀ x ∈ d.source, x.markers = [] := fun x hx => hm (x.string, x.markers) (List.mem_append_left _ (List.mem_map.2 ⟨x, hx, rfl⟩))
  have hd : ∀ x ∈ d.dest, x.markers = [] := fun x hx => hm (x.string, x.markers) (List.mem_append_right _ (List.mem_map.2 ⟨x, hx, rfl⟩))
  have key : ∀ l : List Marker, (∀ m, l.head? = some m → m.type = .Start) → NoOpenEnd l := by
    intro l hl
    cases l with
    | nil => trivial
    | cons m l =>
      obtain ⟨ty, o⟩ := m
      have := hl _ rfl
      simp only at this
      subst this
      trivial
  have n1 : ∀ x ∈ d'.source, NoOpenEnd x.markers := fun x hx =>
    key _ (hn (x.string, x.markers) (List.mem_append_left _ (List.mem_map.2 ⟨x, hx, rfl⟩)))
  have n2 : ∀ x ∈ d'.dest, NoOpenEnd x.markers := fun x hx =>
    key _ (hn (x.string, x.markers) (List.mem_append_right _ (List.mem_map.2 ⟨x, hx, rfl⟩)))
  have tw : ∀ l : List DStr, shownLines (l.map DStr.twice) = (shownLines l).map (fun x => (x.1, x.2 ++ x.2)) := by
    intro l
    simp [shownLines, DStr.twice]
  have same : ∀ l : List DStr, (∀ x ∈ l, x.markers = []) → shownLines l = (shownLines l).map (fun x => (x.1, x.2 ++ x.2)) := by
    intro l hl
    simp only [shownLines, List.map_map]
    refine List.map_congr_left (fun x hx => ?_)
    simp [hl x hx]
  unfold Diff.determineInline at h
  by_cases ht : d.type ≠ .Change
  · rw [if_pos ht] at h
    cases h
    refine ⟨d, ?_, same _ hs, same _ hd⟩
    unfold Diff.determineInline
    rw [if_pos ht]
  · rw [if_neg ht] at h
    by_cases hl : d.slc ≠ d.dlc
    · rw [if_pos hl] at h
      cases h
      refine ⟨d, ?_, same _ hs, same _ hd⟩
      unfold Diff.determineInline
      rw [if_neg ht, if_pos hl]
    · rw [if_neg hl, Res.bind_eq_ok] at h
      obtain ⟨r, e, h⟩ := h
      cases h
      have hb := inlineLoop_bare (ss' := r.1) (ds' := r.2) e
      have hlen : r.1.length = r.2.length := by
        have q1 := congrArg List.length hb.1
        have q2 := congrArg List.length hb.2
        simp only [List.length_map] at q1 q2
        have : d.source.length = d.dest.length := Decidable.not_not.1 hl
        omega
      have := inlineLoop_again _ _ hs hd (ss' := r.1) (ds' := r.2) e n1 n2
      refine ⟨{ d with source := r.1.map DStr.twice, dest := r.2.map DStr.twice }, ?_, tw _, tw _⟩
      unfold Diff.determineInline
      rw [if_neg (by exact ht), if_neg (by simp only [Diff.slc, Diff.dlc, hlen, ne_eq, not_true_eq_false, not_false_eq_true])]
      simp only
      rw [this]
      rfl

/-- A change of one line, `kitten` to `sitten`. -/
def inlineDemo : Diff := { Diff.new 1 1 .Change with source := [DStr.ofStr (str "kitten\n")], dest := [DStr.ofStr (str "sitten\n")] }

/-- The hypotheses of C49 are met by an ordinary change; exactly the first characters are marked on both sides (by an `End` marker
without a `Start`, as C05 says). -/
example : ∃ d', inlineDemo.determineInline = Res.ok d' ∧ Marked d'.type (shownLines d'.source) (shownLines d'.dest) := by
  obtain ⟨d', h1, _, h2⟩ := C49_difference inlineDemo (by unfold NoMarks; decide) (by decide)
  exact ⟨d', h1, h2⟩

/-- A change marked in full, `ab` to `cd`. -/
def coarseDemo : Diff := { Diff.new 1 1 .Change with source := [DStr.ofStr (str "ab")], dest := [DStr.ofStr (str "cd")] }

/-- The hypotheses of C49_again are met by a change with markers: the second call doubles them. -/
example : ∃ d' d'', coarseDemo.determineInline = Res.ok d' ∧ d'.determineInline = Res.ok d'' ∧
    shownLines d'.source = [(str "ab", [⟨.Start, 0⟩, ⟨.End, 2⟩])] ∧
    shownLines d''.source = [(str "ab", [⟨.Start, 0⟩, ⟨.End, 2⟩, ⟨.Start, 0⟩, ⟨.End, 2⟩])] := by
  obtain ⟨d', h1, hb, h2⟩ := C49_difference coarseDemo (by unfold NoMarks; decide) (by decide)
  have e1 : d'.source.map DStr.bare = coarseDemo.source.map DStr.bare := congrArg Diff.source hb
  have e2 : d'.dest.map DStr.bare = coarseDemo.dest.map DStr.bare := congrArg Diff.dest hb
  have e3 : d'.type = .Change := congrArg Diff.type hb
  have t1 := bare_text e1
  have t2 := bare_text e2
  have ex : ∃ x y, d'.source = [x] ∧ d'.dest = [y] ∧ x.string = str "ab" ∧ y.string = str "cd" := by
    match hs : d'.source, hd : d'.dest with
    | [x], [y] =>
      rw [hs] at t1; rw [hd] at t2
      exact ⟨x, y, rfl, rfl, by simpa [coarseDemo, DStr.ofStr] using t1, by simpa [coarseDemo, DStr.ofStr] using t2⟩
    | [], _ => rw [hs] at t1; simp [coarseDemo] at t1
    | _ :: _ :: _, _ => rw [hs] at t1; simp [coarseDemo] at t1
    | [_], [] => rw [hd] at t2; simp [coarseDemo] at t2
    | [_], _ :: _ :: _ => rw [hd] at t2; simp [coarseDemo] at t2
  obtain ⟨x, y, hx, hy, sx, sy⟩ := ex
  unfold Marked at h2
  rw [if_pos ⟨e3, by rw [hx, hy]; rfl⟩] at h2
  have hp := h2 ((x.string, x.markers), (y.string, y.markers)) (by rw [hx, hy]; simp [shownLines])
  unfold PairMarked at hp
  simp only [sx, sy] at hp
  rw [if_neg (by decide)] at hp
  obtain ⟨n, hn, hp⟩ := hp
  have h2n : n = D true (str "ab") (str "cd") 2 2 :=
    Nat.le_antisymm (hn.2 _ (isDistance_D true (str "ab") (str "cd")).1) ((isDistance_D true (str "ab") (str "cd")).2 _ hn.1)
  have hD : D true (str "ab") (str "cd") 2 2 = 2 := by simp [D, str, mis]
  rw [if_neg (by rw [h2n, hD]; decide)] at hp
  have m1 : x.markers = [⟨.Start, 0⟩, ⟨.End, 2⟩] := hp.1
  have m2 : y.markers = [⟨.Start, 0⟩, ⟨.End, 2⟩] := hp.2
  obtain ⟨d'', h3, h4, _⟩ := C49_again coarseDemo d' (by unfold NoMarks; decide) h1 (by
    rw [hx, hy]
    simp only [shownLines, List.map_cons, List.map_nil, List.cons_append, List.nil_append, List.mem_cons, List.not_mem_nil, or_false, m1, m2]
    rintro z (rfl | rfl) m hm <;> (cases hm; rfl))
  refine ⟨d', d'', h1, h3, ?_, ?_⟩
  · rw [hx]; simp [shownLines, sx, m1]
  · rw [h4, hx]; simp [shownLines, sx, m1]

/-- The specification is not met by swapped markers: with the marks of `ab`/`b` exchanged, the unmarked characters differ. -/
example : ¬ PairMarked (str "ab\n") (str "b\n") [] [⟨.Start, 0⟩, ⟨.End, 1⟩] := by
  unfold PairMarked
  rw [if_neg (by decide)]
  rintro ⟨d, hd, h⟩
  have : d ≤ 1 := hd.2 1 (.delete 'a' (.keep 'b' (.keep '\n' .nil)))
  rw [if_pos (by simp [str]; omega)] at h
  exact absurd h.1 (by decide)

end KompareDiff2
