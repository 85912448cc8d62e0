import Verif.Proofs.EndToEnd
import Verif.Proofs.Named
import Verif.Props.Blend
import Verif.Props.ParserSound
import Verif.Props.ModelList
/-
Property theorem C48: from the diff text to the saved file.
-/
namespace KompareDiff2
open Spec

theorem perm_of_map {α β : Type} {g : α → β} {l1 l2 : List β} (p : l1.Perm l2) : ∀ {L : List α}, l2 = L.map g → ∃ L' : List α, L'.Perm L ∧ l1 = L'.map g := by
  induction p with
  | nil => intro L h; exact ⟨L, .refl _, h⟩
  | cons x _ ih =>
    intro L h
    cases L with
    | nil => simp at h
    | cons y L =>
      simp only [List.map_cons, List.cons.injEq] at h
      obtain ⟨L', p', e⟩ := ih h.2
      exact ⟨y :: L', p'.cons y, by rw [h.1, e]; rfl⟩
  | swap x y l =>
    intro L h
    cases L with
    | nil => simp at h
    | cons a L =>
      cases L with
      | nil => simp at h
      | cons b L =>
        simp only [List.map_cons, List.cons.injEq] at h
        obtain ⟨rfl, rfl, rfl⟩ := h
        exact ⟨b :: a :: L, .swap _ _ _, rfl⟩
  | trans _ _ ih1 ih2 =>
    intro L h
    obtain ⟨L2, p2, e2⟩ := ih2 h
    obtain ⟨L1, p1, e1⟩ := ih1 e2
    exact ⟨L1, p1.trans p2, e1⟩

theorem block_src (a b : Nat) (k : Block) : (k.view a b).src = k.old.map Line.value := by cases k <;> rfl
theorem block_dst (a b : Nat) (k : Block) : (k.view a b).dst = k.new.map Line.value := by cases k <;> rfl

theorem blockViews_src (ks : List Block) (a b : Nat) : (blockViews a b ks).flatMap DView.src = ks.flatMap (fun k => k.old.map Line.value) := by
  induction ks generalizing a b with
  | nil => rfl
  | cons k ks ih => simp only [blockViews, List.flatMap_cons, ih, block_src]

theorem blockViews_dst (ks : List Block) (a b : Nat) : (blockViews a b ks).flatMap DView.dst = ks.flatMap (fun k => k.new.map Line.value) := by
  induction ks generalizing a b with
  | nil => rfl
  | cons k ks ih => simp only [blockViews, List.flatMap_cons, ih, block_dst]

/-- What the parser shows of a hunk is the edit written in the diff. -/
theorem UHunk.view_edit (h : UHunk) : h.view.edit = h.edit := by
  unfold HView.edit HView.old HView.new UHunk.edit UHunk.view
  simp only [blockViews_src, blockViews_dst]

/-- A parsed model whose hunks apply can be blended. -/
theorem parsed_blendable {win : Bool} {cmp : Str → Str → Int} {heap : Heap} {lines : List Str} {r : ParseResult} {ms : List DModel}
    (h : parse win cmp heap lines = Res.ok r) (hm : r.models = some ms) {x : DModel} (hx : x ∈ ms) {c : Str} {T : List Str}
    (hp : Patches 0 ((x.hunks.map (Hunk.view r.heap)).map HView.edit) (split c) T) : Blendable r.heap x c T := by
  have key : ∀ P : HView → Prop, ParsedModels P heap r.heap ms → (∀ k, P k → k.type = .Normal ∧ k.Coherent) → Blendable r.heap x c T := by
    intro P hpm hP
    have hm := (hpm.each x hx).1
    refine ⟨hm.alloc, ?_, fun k hk => (hP _ (hm.hunks k hk)).2, ?_, hp⟩
    · intro k hk q
      have e : (k.view r.heap).type = .Normal := (hP _ (hm.hunks k hk)).1
      have e2 : (k.view r.heap).type = k.type := rfl
      rw [e2, q] at e
      cases e
    · intro i hi ht
      rw [hm.differences, List.mem_filter]
      exact ⟨hi, by simpa using ht⟩
  rcases C27_parse_sound win cmp heap lines r ms h hm with h | h | h
  · exact key _ h (fun k => (coherent_formats k).1)
  · exact key _ h (fun k => (coherent_formats k).2.1)
  · exact key _ h (fun k => (coherent_formats k).2.2)

theorem writes_saved {s : MLState} {ms : List Nat} (h : Opened s ms) {m : Nat} (hm : m ∈ ms) : Writes s m ((s.store m).savedText s.heap) := by
  obtain ⟨i, hi⟩ := Option.ne_none_iff_exists'.1 h.info
  constructor
  · rintro ⟨d, hd, hu⟩
    have hus : (s.store m).hasUnsavedChanges s.heap = true := List.any_eq_true.2 ⟨d, hd, hu⟩
    unfold MLState.saveDestination
    rw [h.model hm, Res.bind_ok, hi]
    simp only [hus, Bool.true_eq_false, if_false, and_false, if_true]
    exact ⟨_, _, rfl, rfl⟩
  · intro v s' b hs
    unfold MLState.saveDestination at hs
    rw [h.model hm, Res.bind_ok, hi] at hs
    dsimp only at hs
    have hem : ∀ (e : ErrorKind) (b' : Bool), Res.ok (s.emit (.error e), b') = Res.ok (s', b) →
        ∃ new, s'.log = s.log ++ new ∧ ∀ target t, .upload target t ∈ new → t = (s.store m).savedText s.heap := by
      intro e b' q
      simp only [Res.ok.injEq, Prod.mk.injEq] at q
      rw [← q.1]
      exact ⟨[.error e], rfl, fun target t ht => by simp at ht⟩
    split at hs
    · simp only [Res.ok.injEq, Prod.mk.injEq] at hs
      rw [← hs.1]
      exact ⟨[], by simp, fun target t ht => by simp at ht⟩
    · split at hs
      · exact hem _ _ hs
      · split at hs
        · exact hem _ _ hs
        · split at hs
          · exact hem _ _ hs
          · split at hs
            · exact hem _ _ hs
            · split at hs
              · simp only [Res.ok.injEq, Prod.mk.injEq] at hs
                rw [← hs.1]
                refine ⟨[.upload _ _], rfl, fun target t ht => ?_⟩
                simp only [List.mem_singleton, Event.upload.injEq] at ht
                exact ht.2
              · exact hem _ _ hs

/-- A model that shows the whole file is saved as the property says. -/
theorem ready_saves {s : MLState} {ms : List Nat} (h : Opened s ms) (hs : Selected s ms) {m : Nat} (hm : m ∈ ms) {S : Str} {T : List Str}
    (hr : Ready s.heap (s.store m) (split S) T) : SavesMix s m S T := by
  intro ops hops
  obtain ⟨k, j, m0, d, a⟩ := hs
  obtain ⟨s', k', j', m', d', g⟩ := runUser_ok ops h a hops
  have hr' : Ready s'.heap (s'.store m) (split S) T :=
    hr.frame (g.frame.hunks m) (g.frame.differences m) g.frame.cells (Nat.le_of_eq g.frame.heapNext.symm)
  have hw := writes_saved g.opened hm
  obtain ⟨out, ho, hsv⟩ := hr'.saved
  refine ⟨s', g.ok, ⟨out, ho, hsv ▸ hw⟩, fun hb => ?_, fun hb => ?_⟩
  · have := hr'.all false hb
    simp only [Bool.false_eq_true, if_false] at this
    exact this ▸ hw
  · have := hr'.all true hb
    simp only [if_true] at this
    rw [show (split S).flatten = S from splitAux_flatten [] S] at this
    exact this ▸ hw

theorem Parsed.fresh_unsaved {h : Heap} {m : DModel} (p : Parsed HView.Untouched h m) {d : Nat} (hd : d ∈ m.differences) :
    (h.cell d).unsaved = false := by
  have := p.sub hd
  unfold DModel.hunkIds at this
  obtain ⟨k, hk, hdk⟩ := List.mem_flatMap.1 this
  have := p.hunks k hk (h.cell d).view (List.mem_map.2 ⟨d, hdk, rfl⟩)
  exact this.2.1

/-- The models after parsing a well-formed unified diff. -/
theorem opens_blendable {e : Env} {s : MLState} (w : WF s) (hi : s.info ≠ none) {D : UDiff} (ok : D.Ok) (hc : ∃ f ∈ D.files, f.changes = true)
    (orig : Str → Str) (T : UFile → List Str)
    (hp : ∀ f ∈ D.files, f.changes = true → Patches 0 (f.hunks.map UHunk.edit) (split (orig (unescapePath e.win f.src.name))) (T f)) :
    ∃ (s1 : MLState) (fs : List UFile), s.parseDiffOutput e D.render.flatten = Res.ok (s1, true) ∧ Opened s1 (List.range' s.nextModel fs.length) ∧
      Selected s1 (List.range' s.nextModel fs.length) ∧ WF s1 ∧ fs.Perm (D.files.filter UFile.changes) ∧
      (∀ i, s.info = some i → ∃ i', s1.info = some i' ∧ i.SameOperands i') ∧
      ∀ k f, fs[k]? = some f → (s1.store (s.nextModel + k)).source = unescapePath e.win f.src.name ∧
        (∀ d ∈ (s1.store (s.nextModel + k)).differences, (s1.heap.cell d).applied = false) ∧
        Blendable s1.heap (s1.store (s.nextModel + k)) (orig (s1.store (s.nextModel + k)).source) (T f) ∧
        (s1.store (s.nextModel + k)).destination = unescapePath e.win f.dst.name ∧
        ∀ d ∈ (s1.store (s.nextModel + k)).differences, (s1.heap.cell d).unsaved = false := by
  have hne : D.files ≠ [] := by
    obtain ⟨f, hf, _⟩ := hc
    exact List.ne_nil_of_mem hf
  obtain ⟨r, hr, hmal, hr'⟩ := C26_unified D ok hne e.win e.cmp s.heap
  cases hms : r.models with
  | none =>
    rw [hms] at hr'
    obtain ⟨f, hf, hfc⟩ := hc
    rw [hr' f hf] at hfc
    cases hfc
  | some xs =>
    rw [hms] at hr'
    simp only at hr'
    obtain ⟨fs, hfs, hmap⟩ := perm_of_map hr'.2 rfl
    have hlen : xs.length = fs.length := by
      have := congrArg List.length hmap
      simpa using this
    obtain ⟨s1, h1⟩ := parseDiffOutput_total w hi hr
    rw [hms] at h1
    obtain ⟨w1, _, _, r', hr2, hheap, _, h2⟩ := parseDiffOutput_spec w h1
    rw [hr] at hr2
    simp only [Res.ok.injEq] at hr2
    subst hr2
    obtain ⟨xs', m, d, hx', ho, ha, hst⟩ := h2 rfl
    rw [hms] at hx'
    simp only [Option.some.injEq] at hx'
    subst hx'
    obtain ⟨_, ⟨i, i', hi1, hi2, hso⟩, _⟩ := parseDiffOutput_events h1
    rw [hlen] at ho ha
    refine ⟨s1, fs, h1, ho, ⟨0, 0, m, d, ha⟩, w1, hfs, ?_, ?_⟩
    · intro j hj
      rw [hi1] at hj
      simp only [Option.some.injEq] at hj
      subst hj
      exact ⟨i', hi2, hso⟩
    · intro k f hk
      have hkl : k < xs.length := by
        rw [hlen]
        exact (List.getElem?_eq_some_iff.1 hk).1
      have hx : xs[k]? = some xs[k] := List.getElem?_eq_getElem hkl
      generalize xs[k] = x at hx
      obtain ⟨q1, q2, q3, q4, q5⟩ := hst k x hx
      have hv : x.view r.heap = f.view (unescapePath e.win) := by
        have := congrArg (fun l => l[k]?) hmap
        simp only [List.getElem?_map, hx, hk, Option.map_some, Option.some.injEq] at this
        exact this
      have hxm : x ∈ xs := List.mem_of_getElem? hx
      have hfm : f ∈ D.files.filter UFile.changes := hfs.mem_iff.1 (List.mem_of_getElem? hk)
      rw [List.mem_filter] at hfm
      have hsrc : x.source = unescapePath e.win f.src.name := congrArg MView.source hv
      have hhk : x.hunks.map (Hunk.view r.heap) = f.hunks.map UHunk.view := congrArg MView.hunks hv
      have hed : (x.hunks.map (Hunk.view r.heap)).map HView.edit = f.hunks.map UHunk.edit := by
        rw [hhk, List.map_map]
        exact List.map_congr_left (fun k _ => UHunk.view_edit k)
      have hB : Blendable r.heap x (orig x.source) (T f) := by
        apply parsed_blendable hr hms hxm
        rw [hed, hsrc]
        exact hp f hfm.1 hfm.2
      refine ⟨q3.trans hsrc, ?_, ?_, q4.trans (congrArg MView.destination hv), ?_⟩
      · intro d hd
        rw [q2] at hd
        rw [hheap]
        have hpm := ((parse_models hr).2 xs hms).2
        exact (hpm.each x hxm).1.fresh_cell hd
      · rw [q3, hheap]
        exact hB.ext q1 q2 (.refl _)
      · intro d hd
        rw [q2] at hd
        rw [hheap]
        have hpm := ((parse_models hr).2 xs hms).2
        exact (hpm.each x hxm).1.fresh_unsaved hd

/-- The files of the diff in the order of the models. -/
def pick (n : Nat) (fs : List UFile) (T : UFile → List Str) (m : Nat) : List Str := ((fs[m - n]?).map T).getD []

theorem pick_eq {n k : Nat} {fs : List UFile} {T : UFile → List Str} {f : UFile} (h : fs[k]? = some f) : pick n fs T (n + k) = T f := by
  unfold pick
  rw [Nat.add_sub_cancel_left, h]
  rfl

theorem mem_range_file {n m : Nat} {fs : List UFile} (h : m ∈ List.range' n fs.length) : ∃ k f, m = n + k ∧ fs[k]? = some f := by
  rw [List.mem_range'_1] at h
  exact ⟨m - n, fs[m - n]'(by omega), by omega, List.getElem?_eq_getElem _⟩

theorem range_getElem {n k m : Nat} {l : Nat} (h : (List.range' n l)[k]? = some m) : m = n + k := by
  obtain ⟨h1, h2⟩ := List.getElem?_eq_some_iff.1 h
  rw [List.getElem_range'] at h2
  omega

/-- The models when two files or directories have been compared. -/
theorem compare_ready {e : Env} {s : MLState} {r : ProcessResult} {i : Info} (hs : Reachable s) (hi : s.info = some i)
    (hmode : i.mode ≠ .ShowingDiff) (hr : r.finishedNormally = true) (D : UDiff) (hout : r.stdout = D.render.flatten) (ok : D.Ok)
    (hc : ∃ f ∈ D.files, f.changes = true)
    (hu : e.isDir i.localSource = true ∨
      (e.isDir i.localSource = false ∧ e.isFile i.localSource = true ∧ (D.files.filter UFile.changes).length = 1))
    (T : UFile → List Str)
    (hp : ∀ f ∈ D.files, f.changes = true →
      Patches 0 (f.hunks.map UHunk.edit) (split (original e i.localSource (unescapePath e.win f.src.name))) (T f)) :
    ∃ (s1 : MLState) (ms : List Nat) (fs : List UFile), s.slotDiffProcessFinished e r = Res.ok s1 ∧ Opened s1 ms ∧ Selected s1 ms ∧
      (∃ i1, s1.info = some i1 ∧ i.SameOperands i1) ∧ fs.Perm (D.files.filter UFile.changes) ∧
      ms.length = fs.length ∧ ∀ (k : Nat) (m : Nat) (f : UFile), ms[k]? = some m → fs[k]? = some f →
        (s1.store m).source = unescapePath e.win f.src.name ∧
        (s1.store m).destination = unescapePath e.win f.dst.name ∧
        (∀ d ∈ (s1.store m).differences, (s1.heap.cell d).applied = false ∧ (s1.heap.cell d).unsaved = false) ∧
        Ready s1.heap (s1.store m) (split (original e i.localSource (s1.store m).source)) (T f) := by
  have w0 : WF (s.emit (.status .Parsing)) := hs.wf.keep (keep_emit _ _)
  obtain ⟨s1, fs, h1, o1, sel1, w1, hfs, hinfo, hst⟩ := opens_blendable (e := e) (s := s.emit (.status .Parsing)) w0
    (by show s.info ≠ none; rw [hi]; simp) ok hc (original e i.localSource) T hp
  obtain ⟨i1, hi1, hso⟩ := hinfo i hi
  have hls : i1.localSource = i.localSource := by
    unfold Info.SameOperands at hso
    have q := congrArg Info.localSource hso
    exact q
  have hmd : i1.mode = i.mode := by
    unfold Info.SameOperands at hso
    have q := congrArg Info.mode hso
    exact q
  have hn : (s.emit (.status .Parsing)).nextModel = s.nextModel := rfl
  rw [hn] at o1 sel1 hst
  generalize hms : List.range' s.nextModel fs.length = ms at o1 sel1
  have hB : ∀ m ∈ ms, Blendable s1.heap (s1.store m) (original e i.localSource (s1.store m).source) (pick s.nextModel fs T m) := by
    intro m hm
    rw [← hms] at hm
    obtain ⟨k, f, rfl, hk⟩ := mem_range_file hm
    rw [pick_eq hk]
    exact (hst k f hk).2.2.1
  obtain ⟨s2, h2, o2, w2, k2, sel2, e2, so2, rd2⟩ := blendOriginal_ready e o1 w1 sel1 i.localSource
    (by
      rcases hu with hu | ⟨hu1, hu2, hu3⟩
      · exact .inl hu
      · refine .inr ⟨hu1, hu2, ?_⟩
        rw [← hms, List.length_range', hfs.length_eq, hu3]) _ hB
  obtain ⟨k0, j0, m0, d0, a2⟩ := sel2
  obtain ⟨ac, h3, _⟩ := updateActions_ok o2 a2
  have hrun : s.slotDiffProcessFinished e r = Res.ok { (({ s2 with actions := ac } : MLState).show_.emit (.status .FinishedParsing)) with process := none } := by
    unfold MLState.slotDiffProcessFinished
    rw [if_pos hr, hout]
    dsimp only
    rw [h1]
    simp only [Res.bind_ok, Bool.true_eq_false, if_false, hi1, hmd, hls]
    rw [if_pos hmode, h2]
    simp only [Res.bind_ok, h3]
  have nm := named_blendOriginal h2
  have qb := quiet_blendOriginal h2
  obtain ⟨s3, hrun, o3, sel3, hh, hst3, hi3⟩ : ∃ s3, s.slotDiffProcessFinished e r = Res.ok s3 ∧ Opened s3 ms ∧ Selected s3 ms ∧ s3.heap = s2.heap ∧
      s3.store = s2.store ∧ s3.info = s2.info := ⟨_, hrun, o2, ⟨k0, j0, m0, d0, a2⟩, rfl, rfl, rfl⟩
  refine ⟨s3, ms, fs, hrun, o3, sel3, ⟨i1, hi3.trans (qb.info.trans hi1), hso⟩, hfs, by rw [← hms, List.length_range'], ?_⟩
  intro k m f hk hf
  have hm : m = s.nextModel + k := range_getElem (l := fs.length) (by rw [hms]; exact hk)
  subst hm
  have hmem : s.nextModel + k ∈ ms := List.mem_of_getElem? hk
  obtain ⟨q1, q2, _, q3, q4⟩ := hst k f hf
  rw [hst3, hh]
  refine ⟨(so2 _).trans q1, (nm.destination _).trans q3, ?_, ?_⟩
  · intro d hd
    have hd' : d ∈ (s1.store (s.nextModel + k)).differences := (k2.differences _) ▸ hd
    rw [e2.2 d (w1.diffs _ (w1.models _ (by rw [o1.models]; exact hmem)) d hd')]
    exact ⟨q2 d hd', q4 d hd'⟩
  · have hrd := rd2 _ hmem
    rw [pick_eq hf] at hrd
    have e1 : (s2.store (s.nextModel + k)).source = (s1.store (s.nextModel + k)).source := so2 _
    rw [e1]
    exact hrd

/-- C48, comparing files or directories: when the diff program has finished and its output is a well-formed unified diff whose hunks
apply to the originals, there is one model for each file that has changes, nothing is marked as applied, and whatever the user does
afterwards, saving writes the original with the changes that are not marked; with nothing marked the target text, with everything
marked the original. -/
theorem C48_compare {e : Env} {s : MLState} {r : ProcessResult} {i : Info} (hs : Reachable s) (hi : s.info = some i)
    (hmode : i.mode ≠ .ShowingDiff) (hr : r.finishedNormally = true) (D : UDiff) (hout : r.stdout = D.render.flatten) (ok : D.Ok)
    (hc : ∃ f ∈ D.files, f.changes = true)
    (hu : e.isDir i.localSource = true ∨
      (e.isDir i.localSource = false ∧ e.isFile i.localSource = true ∧ (D.files.filter UFile.changes).length = 1))
    (T : UFile → List Str)
    (hp : ∀ f ∈ D.files, f.changes = true →
      Patches 0 (f.hunks.map UHunk.edit) (split (original e i.localSource (unescapePath e.win f.src.name))) (T f)) :
    ∃ (s1 : MLState) (ms : List Nat) (fs : List UFile), s.slotDiffProcessFinished e r = Res.ok s1 ∧ s1.models = some ms ∧ fs.Perm (D.files.filter UFile.changes) ∧
      ms.length = fs.length ∧ ∀ (k : Nat) (m : Nat) (f : UFile), ms[k]? = some m → fs[k]? = some f →
        (s1.store m).source = unescapePath e.win f.src.name ∧
        (∀ d ∈ (s1.store m).differences, (s1.heap.cell d).applied = false) ∧
        SavesMix s1 m (original e i.localSource (s1.store m).source) (T f) := by
  obtain ⟨s1, ms, fs, h1, o, sel, _, hfs, hlen, hst⟩ := compare_ready hs hi hmode hr D hout ok hc hu T hp
  refine ⟨s1, ms, fs, h1, o.models, hfs, hlen, fun k m f hk hf => ?_⟩
  obtain ⟨q1, _, q3, q4⟩ := hst k m f hk hf
  exact ⟨q1, fun d hd => (q3 d hd).1, ready_saves o sel (List.mem_of_getElem? hk) q4⟩

/-- A directory with the old text of `b.txt`, and a patch beside it. -/
def exampleDir : Env :=
  { emptyEnv with
    isDir := fun p => decide (p = str "old"), exists_ := fun p => decide (p = str "old/b.txt")
    contents := fun p => if p = str "p.diff" then exampleDiff.render.flatten else exampleOld }

/-- A list of models for comparing the directory with another one. -/
def exampleCompare : MLState :=
  (MLState.init none true ⟨fun _ => Diff.new 0 0 .Unchanged, 0⟩).setInfo
    (some { mode := .ComparingDirs, localSource := str "old", localDestination := str "p.diff" })

theorem exampleCompare_reachable : Reachable exampleCompare :=
  ⟨none, true, ⟨fun _ => Diff.new 0 0 .Unchanged, 0⟩, [.setInfo (some { mode := .ComparingDirs, localSource := str "old", localDestination := str "p.diff" })], rfl⟩

/-- The new texts: `b.txt` was changed, `a.txt` is new. -/
def exampleNews (f : UFile) : List Str := if f.src.name = str "b.txt" then exampleNew else [str "only\n"]

theorem example_originals : ∀ f ∈ exampleDiff.files, f.changes = true →
    Patches 0 (f.hunks.map UHunk.edit) (split (original exampleDir (str "old") (unescapePath false f.src.name))) (exampleNews f) := by
  intro f hf _
  simp only [exampleDiff, List.mem_cons, List.not_mem_nil, or_false] at hf
  rcases hf with rfl | rfl
  · have e1 : original exampleDir (str "old") (unescapePath false (str "b.txt")) = exampleOld := by decide
    show Patches 0 _ (split (original exampleDir (str "old") (unescapePath false (str "b.txt")))) exampleNew
    rw [e1]
    exact example_patches
  · have e1 : original exampleDir (str "old") (unescapePath false (str "a.txt")) = [] := by decide
    show Patches 0 _ (split (original exampleDir (str "old") (unescapePath false (str "a.txt")))) [str "only\n"]
    rw [e1]
    exact .edit 0 ⟨1, [], [str "only\n"]⟩ [] [] [] [] (by decide) (.done _ _)

/-- The hypotheses of C48 are met: two files of a directory, one of them new. -/
example (st : Str) : ∃ s1 ms, exampleCompare.slotDiffProcessFinished exampleDir ⟨1, .NormalExit, exampleDiff.render.flatten, st⟩ = Res.ok s1 ∧
    s1.models = some ms ∧ ms.length = 2 := by
  obtain ⟨s1, ms, fs, h1, h2, h3, h4, _⟩ := C48_compare (e := exampleDir) (r := ⟨1, .NormalExit, exampleDiff.render.flatten, st⟩)
    exampleCompare_reachable rfl (by decide) rfl exampleDiff rfl exampleDiff_ok ⟨_, List.mem_cons_self .., by decide⟩ (.inl (by decide))
    exampleNews example_originals
  exact ⟨s1, ms, h1, h2, by rw [h4, h3.length_eq]; decide⟩

/-- The models when a patch has been opened for a file or directory. -/
theorem patch_ready {e : Env} {s : MLState} {i : Info} (hs : Reachable s) (hi : s.info = some i)
    (D : UDiff) (hout : e.contents i.localDestination = D.render.flatten) (ok : D.Ok) (hc : ∃ f ∈ D.files, f.changes = true)
    (hu : e.isDir i.localSource = true ∨
      (e.isDir i.localSource = false ∧ e.isFile i.localSource = true ∧ (D.files.filter UFile.changes).length = 1))
    (T : UFile → List Str)
    (hp : ∀ f ∈ D.files, f.changes = true → Patches 0 (f.hunks.map UHunk.edit)
      (split (original e i.localSource (lstripSeparators (unescapePath e.win f.src.name) i.depth))) (T f)) :
    ∃ (s1 : MLState) (ms : List Nat) (fs : List UFile), s.openAndDiff e = Res.ok (s1, true) ∧ Opened s1 ms ∧ Selected s1 ms ∧
      (∃ i1, s1.info = some i1 ∧ i.SameOperands i1) ∧ fs.Perm (D.files.filter UFile.changes) ∧
      ms.length = fs.length ∧ ∀ (k : Nat) (m : Nat) (f : UFile), ms[k]? = some m → fs[k]? = some f →
        (s1.store m).source = lstripSeparators (unescapePath e.win f.src.name) i.depth ∧
        (∀ d ∈ (s1.store m).differences, (s1.heap.cell d).applied = i.applied ∧ (s1.heap.cell d).unsaved = i.applied) ∧
        Ready s1.heap (s1.store m) (split (original e i.localSource (s1.store m).source)) (T f) := by
  have w0 : WF s.clear := hs.wf.keep (keep_clear _)
  obtain ⟨s1, fs, h1, o1, sel1, w1, hfs, hinfo, hst⟩ := opens_blendable (e := e) (s := s.clear) w0
    (by show s.info ≠ none; rw [hi]; simp) ok hc (fun x => original e i.localSource (lstripSeparators x i.depth)) T hp
  obtain ⟨i1, hi1, hso⟩ := hinfo i hi
  have hls : i1.localSource = i.localSource := by
    unfold Info.SameOperands at hso
    have q := congrArg Info.localSource hso
    exact q
  have hdp : i1.depth = i.depth := by
    unfold Info.SameOperands at hso
    have q := congrArg Info.depth hso
    exact q
  have hap : i1.applied = i.applied := by
    unfold Info.SameOperands at hso
    have q := congrArg Info.applied hso
    exact q
  have hn : s.clear.nextModel = s.nextModel := rfl
  rw [hn] at o1 sel1 hst
  generalize hms : List.range' s.nextModel fs.length = ms at o1 sel1
  obtain ⟨s15, h15, o15, w15, k15, sel15, i15, dep⟩ := setDepth_ready o1 w1 sel1 hi1
  have hB : ∀ m ∈ ms, Blendable s15.heap (s15.store m) (original e i.localSource (s15.store m).source) (pick s.nextModel fs T m) := by
    intro m hm
    have hsrc := dep.source m
    rw [if_pos hm, hdp] at hsrc
    rw [hsrc]
    rw [← hms] at hm
    obtain ⟨k, f, rfl, hk⟩ := mem_range_file hm
    rw [pick_eq hk]
    exact (hst k f hk).2.2.1.frame (dep.hunks _) (dep.differences _) dep.cells (Nat.le_of_eq dep.next.symm)
  obtain ⟨s2, h2, o2, w2, k2, sel2, e2, so2, rd2⟩ := blendOriginal_ready e o15 w15 sel15 i.localSource
    (by
      rcases hu with hu | ⟨hu1, hu2, hu3⟩
      · exact .inl hu
      · refine .inr ⟨hu1, hu2, ?_⟩
        rw [← hms, List.length_range', hfs.length_eq, hu3]) _ hB
  obtain ⟨k0, j0, m0, d0, a2⟩ := sel2
  obtain ⟨ac, h3, _⟩ := updateActions_ok o2 a2
  have hrun : s.openAndDiff e = Res.ok (({ s2 with actions := ac } : MLState).show_, true) := by
    unfold MLState.openAndDiff
    rw [hi]
    dsimp only
    rw [hout, h1]
    simp only [Res.bind_ok, Bool.true_eq_false, if_false, h15, h2, h3]
  obtain ⟨s3, hrun, o3, sel3, hh, hst3, hi3⟩ : ∃ s3, s.openAndDiff e = Res.ok (s3, true) ∧ Opened s3 ms ∧ Selected s3 ms ∧ s3.heap = s2.heap ∧ s3.store = s2.store ∧
      s3.info = s2.info := ⟨_, hrun, o2, ⟨k0, j0, m0, d0, a2⟩, rfl, rfl, rfl⟩
  have qb := quiet_blendOriginal h2
  refine ⟨s3, ms, fs, hrun, o3, sel3, ⟨i1, hi3.trans (qb.info.trans (i15.trans hi1)), hso⟩, hfs, by rw [← hms, List.length_range'], ?_⟩
  intro k m f hk hf
  have hm : m = s.nextModel + k := range_getElem (l := fs.length) (by rw [hms]; exact hk)
  subst hm
  have hmem : s.nextModel + k ∈ ms := List.mem_of_getElem? hk
  obtain ⟨q1, q2, _, _, q5⟩ := hst k f hf
  have hsrc := dep.source (s.nextModel + k)
  rw [if_pos hmem, hdp, q1] at hsrc
  rw [hst3, hh]
  refine ⟨(so2 _).trans hsrc, ?_, ?_⟩
  · intro d hd
    have hd15 : d ∈ (s15.store (s.nextModel + k)).differences := (k2.differences _) ▸ hd
    have hd' : d ∈ (s1.store (s.nextModel + k)).differences := (dep.differences _) ▸ hd15
    rw [e2.2 d (w15.diffs _ (w15.models _ (by rw [o15.models]; exact hmem)) d hd15), ← hap]
    have a1 := dep.applied _ hmem d hd'
    have a2 := (dep.toggled d).2
    rw [q2 d hd', q5 d hd', a1, Bool.xor_false, Bool.xor_false] at a2
    exact ⟨a1, a2⟩
  · have hrd := rd2 _ hmem
    rw [pick_eq hf] at hrd
    have e1 : (s2.store (s.nextModel + k)).source = (s15.store (s.nextModel + k)).source := so2 _
    rw [e1]
    exact hrd

/-- C48, opening a patch for a file or directory: as above, with path components stripped as demanded, and all differences marked as
`Info.applied` says. -/
theorem C48_patch {e : Env} {s : MLState} {i : Info} (hs : Reachable s) (hi : s.info = some i)
    (D : UDiff) (hout : e.contents i.localDestination = D.render.flatten) (ok : D.Ok) (hc : ∃ f ∈ D.files, f.changes = true)
    (hu : e.isDir i.localSource = true ∨
      (e.isDir i.localSource = false ∧ e.isFile i.localSource = true ∧ (D.files.filter UFile.changes).length = 1))
    (T : UFile → List Str)
    (hp : ∀ f ∈ D.files, f.changes = true → Patches 0 (f.hunks.map UHunk.edit)
      (split (original e i.localSource (lstripSeparators (unescapePath e.win f.src.name) i.depth))) (T f)) :
    ∃ (s1 : MLState) (ms : List Nat) (fs : List UFile), s.openAndDiff e = Res.ok (s1, true) ∧ s1.models = some ms ∧
      fs.Perm (D.files.filter UFile.changes) ∧
      ms.length = fs.length ∧ ∀ (k : Nat) (m : Nat) (f : UFile), ms[k]? = some m → fs[k]? = some f →
        (s1.store m).source = lstripSeparators (unescapePath e.win f.src.name) i.depth ∧
        (∀ d ∈ (s1.store m).differences, (s1.heap.cell d).applied = i.applied) ∧
        SavesMix s1 m (original e i.localSource (s1.store m).source) (T f) := by
  obtain ⟨s1, ms, fs, h1, o, sel, _, hfs, hlen, hst⟩ := patch_ready hs hi D hout ok hc hu T hp
  refine ⟨s1, ms, fs, h1, o.models, hfs, hlen, fun k m f hk hf => ?_⟩
  obtain ⟨q1, q3, q4⟩ := hst k m f hk hf
  exact ⟨q1, fun d hd => (q3 d hd).1, ready_saves o sel (List.mem_of_getElem? hk) q4⟩

/-- The part of the diff for `b.txt`. -/
def exampleOne : UDiff := { files := exampleDiff.files.take 1 }

theorem exampleOne_ok : exampleOne.Ok := by
  have ok := exampleDiff_ok
  refine ⟨fun f hf => ok.files f (List.mem_of_mem_take hf), ?_, ?_, by simp [exampleOne], by simp [exampleOne]⟩
  · intro f fs e
    simp only [exampleOne, exampleDiff, List.take_succ_cons, List.take_zero, List.cons.injEq] at e
    obtain ⟨rfl, rfl⟩ := e
    exact ⟨(ok.first _ _ rfl).1, fun _ => by simp⟩
  · intro f fs e
    simp only [exampleOne, exampleDiff, List.take_succ_cons, List.take_zero, List.cons.injEq] at e
    obtain ⟨rfl, rfl⟩ := e
    simp

/-- The file `b.txt` and a patch for it. -/
def examplePatch : Env :=
  { emptyEnv with
    isFile := fun _ => true, contents := fun p => if p = str "p.diff" then exampleOne.render.flatten else exampleOld }

/-- The hypotheses are met: the file `b.txt` and a patch for it. -/
example : ∃ s1 ms, ((MLState.init none true ⟨fun _ => Diff.new 0 0 .Unchanged, 0⟩).setInfo
    (some { mode := .BlendingFile, localSource := str "b.txt", localDestination := str "p.diff" })).openAndDiff examplePatch = Res.ok (s1, true) ∧
    s1.models = some ms ∧ ms.length = 1 := by
  obtain ⟨s1, ms, fs, h1, h2, h3, h4, _⟩ := C48_patch (e := examplePatch) (s := (MLState.init none true ⟨fun _ => Diff.new 0 0 .Unchanged, 0⟩).setInfo
      (some { mode := .BlendingFile, localSource := str "b.txt", localDestination := str "p.diff" }))
    ⟨none, true, ⟨fun _ => Diff.new 0 0 .Unchanged, 0⟩, [.setInfo (some { mode := .BlendingFile, localSource := str "b.txt", localDestination := str "p.diff" })], rfl⟩
    rfl exampleOne (show (if str "p.diff" = str "p.diff" then exampleOne.render.flatten else exampleOld) = _ from if_pos rfl) exampleOne_ok ⟨_, List.mem_cons_self .., by decide⟩ (.inr ⟨rfl, rfl, by decide⟩) (fun _ => exampleNew) (by
      intro f hf hc
      simp only [exampleOne, exampleDiff, List.take_succ_cons, List.take_zero, List.mem_cons, List.not_mem_nil, or_false] at hf
      subst hf
      exact example_patches)
  exact ⟨s1, ms, h1, h2, by rw [h4, h3.length_eq]; decide⟩

/-- C48, defect: when a file is given and the diff contains several files, only the first model is completed with the text of the file.
The other models stay as they were, so that saving one of them writes the lines of its hunks only. -/
theorem C48_only_first_defect {e : Env} {s s' : MLState} {url : Str} {m0 : Nat} {l : List Nat} {b : Bool} (hm : s.models = some (m0 :: l))
    (hd : e.isDir url = false) (hr : s.blendOriginal e url = Res.ok (s', b)) {x : Nat} (hx : x ≠ m0) (ha : ∀ i ∈ (s.store x).hunkIds, i < s.heap.next) :
    s'.store x = s.store x ∧ (s'.store x).savedText s'.heap = (s.store x).savedText s.heap := by
  have key : s'.store x = s.store x ∧ s.heap.Ext s'.heap := by
    unfold MLState.blendOriginal at hr
    rw [if_neg (by rw [hd]; simp)] at hr
    split at hr
    · unfold MLState.list at hr
      rw [hm] at hr
      simp only [Res.bind_ok] at hr
      rw [show atR (m0 :: l) 0 = Res.ok m0 from rfl, Res.bind_ok] at hr
      obtain ⟨t, h1, h2⟩ := Res.bind_eq_ok.1 hr
      simp only [Res.ok.injEq, Prod.mk.injEq] at h2
      rw [← h2.1]
      unfold MLState.blendFile at h1
      obtain ⟨i, hi, g1⟩ := Res.bind_eq_ok.1 h1
      have hi' : i = m0 := by
        unfold MLState.model at hi
        dsimp only at hi
        split at hi
        · cases hi
        · exact (Res.ok.inj hi).symm
      subst hi'
      dsimp only at g1
      obtain ⟨u, h3, h4⟩ := Res.bind_eq_ok.1 g1
      unfold MLState.firstModel MLState.list at h3
      have hmm : ({ (s.setModel i ((s.store i).blend s.heap (e.contents url)).1) with heap := ((s.store i).blend s.heap (e.contents url)).2 } : MLState).models = some (i :: l) := hm
      rw [hmm] at h3
      simp only [Res.bind_ok] at h3
      rw [show atR (i :: l) 0 = Res.ok i from rfl, Res.bind_ok] at h3
      have h3 := Res.ok.inj h3
      unfold MLState.selectFirst at h4
      obtain ⟨j, h5, g4⟩ := Res.bind_eq_ok.1 h4
      have hj : j = i := by
        rw [← h3] at h5
        unfold MLState.model at h5
        dsimp only at h5
        split at h5
        · cases h5
        · exact (Res.ok.inj h5).symm
      subst hj
      unfold MLState.selectWith at g4
      obtain ⟨q, _, g4⟩ := Res.bind_eq_ok.1 g4
      have g4 := Res.ok.inj g4
      rw [← g4]
      refine ⟨?_, ?_⟩
      · show (if x = j then _ else u.store x) = _
        rw [if_neg hx, ← h3]
        show (if x = j then _ else s.store x) = _
        rw [if_neg hx]
      · show s.heap.Ext u.heap
        rw [← h3]
        exact blend_ext _ _ _
    · simp only [Res.ok.injEq, Prod.mk.injEq] at hr
      rw [← hr.1]
      exact ⟨rfl, .refl _⟩
  refine ⟨key.1, ?_⟩
  rw [key.1]
  unfold DModel.savedText
  congr 1
  simp only [List.flatMap]
  congr 1
  exact List.map_congr_left (fun i hi => by rw [key.2.2 i (ha i hi)])

/-- The hypotheses are met: the two files of the diff of C26 and one file. -/
example : ∃ (s s' : MLState) (m0 x : Nat) (b : Bool), s.models = some [m0, x] ∧ s.blendOriginal examplePatch (str "b.txt") = Res.ok (s', b) ∧ x ≠ m0 ∧
    ∀ i ∈ (s.store x).hunkIds, i < s.heap.next := by
  obtain ⟨s1, fs, _, h2, h3, h4, h5, _, h6⟩ := opens_blendable (e := exampleDir) (s := exampleCompare) exampleCompare_reachable.wf (by simp [exampleCompare, MLState.setInfo])
    exampleDiff_ok ⟨_, List.mem_cons_self .., by decide⟩ (original exampleDir (str "old")) exampleNews example_originals
  have hl : fs.length = 2 := by rw [h5.length_eq]; decide
  obtain ⟨s2, b, hb, _⟩ := blendOriginal_ok examplePatch h2 h4 (str "b.txt") h3
  have hm := h2.models
  rw [hl] at hm
  refine ⟨s1, s2, 0, 1, b, hm, hb, by decide, ?_⟩
  have hk : fs[1]? = some fs[1] := List.getElem?_eq_getElem _
  exact (h6 1 _ hk).2.2.1.alloc

end KompareDiff2
