import Verif.Proofs.Location
import Verif.Props.Disk
/-
C64: directories and file names of the models, and the files they are saved to.
-/
namespace KompareDiff2
open Spec

/-- **C64.** In a session that began with the output of the diff program or with a diff opened as it is, directory and file name of every model are
those of the names in the diff, whatever was selected, applied, saved or edited since. -/
theorem C64_names {s s1 s2 : MLState} {op : MLOp} (hs : Reachable s) (ho : OpensDiff op s s1) (hn : TakesNames op) (h : EditedFrom s1 s2) :
    ∀ m ∈ s2.models.getD [], SplitOf (s2.store m).source (s2.store m).sourcePath (s2.store m).sourceFile ∧
      SplitOf (s2.store m).destination (s2.store m).destinationPath (s2.store m).destinationFile := by
  obtain ⟨ms, l1, l2, _, st⟩ := edited_inv hs ho h
  intro m hm
  rw [st.models] at hm
  exact paths_of_head (st.head m) (opens_paths hs ho hn m hm)

/-- **C64.** When directories were compared, a model is saved to the place of the destination directory that corresponds to its name: the local copy of the
destination directory is cut off the name, and the URL of the destination directory takes its place. -/
theorem C64_target {s s1 s2 : MLState} {op : MLOp} (hs : Reachable s) (ho : OpensDiff op s s1) (hn : TakesNames op) (h : EditedFrom s1 s2)
    {i : Info} (hmode : i.mode = .ComparingDirs) {m : Nat} (hm : m ∈ s2.models.getD []) {rest : Str}
    (hu : Under i.localDestination (s2.store m).destination rest) : saveTarget i (s2.store m) = i.destination ++ rest :=
  under_target hmode (C64_names hs ho hn h m hm) hu

theorem reachable_runUser (ops : List UserOp) : ∀ {s s' : MLState}, Reachable s → runUser ops s = Res.ok s' → Reachable s' := by
  induction ops with
  | nil => intro s s' h e; cases e; exact h
  | cons op ops ih =>
    intro s s' h e
    obtain ⟨t, ht, e⟩ := Res.bind_eq_ok.1 e
    exact ih (h.step (op := .user op) ht) e

/-- **C64.** After two directories were compared and the user has selected and applied differences, saving all models (nothing fails) writes the text of
every changed file to its place in the destination directory, and changes no other file. -/
theorem C64_save_all {s s1 s2 : MLState} {op : MLOp} (hs : Reachable s) (ho : OpensDiff op s s1) (hn : TakesNames op) (ops : List UserOp)
    (hops : ∀ o ∈ ops, o.Ok s1) (hrun : runUser ops s1 = Res.ok s2) {i : Info} (hi : s2.info = some i) (hmode : i.mode = .ComparingDirs) {ms : List Nat}
    (hms : s2.models = some ms) (rest : Nat → Str) (hu : ∀ m ∈ ms, Under i.localDestination (s2.store m).destination (rest m))
    (distinct : ms.Pairwise (fun m m' => (s2.store m).destination ≠ (s2.store m').destination))
    (v : Nat → MLState.SaveRun) (hv : ∀ m, (v m).toSaveEnv.failure i.mode = none) (t : Nat → Nat) (temps : ms.Pairwise (fun m m' => t m ≠ t m')) :
    ∃ steps, s2.saveAllSteps v t = Res.ok steps ∧ ∀ d : Disk,
      (∀ m ∈ ms, (s2.store m).hasUnsavedChanges s2.heap = true → (d.run steps).file (i.destination ++ rest m) = some ((s2.store m).savedText s2.heap)) ∧
      (∀ u, (∀ m ∈ ms, (s2.store m).hasUnsavedChanges s2.heap = true → u ≠ i.destination ++ rest m) → (d.run steps).file u = d.file u) := by
  obtain ⟨_, _, ms', k, j, m, d, o1, a1⟩ := (ho.inUse hs).facts
  obtain ⟨s2', k', j', m', d', g⟩ := runUser_ok ops o1 a1 hops
  have e : s2' = s2 := Res.ok.inj (g.ok.symm.trans hrun)
  subst e
  have hr := reachable_runUser ops (ho.reachable hs) hrun
  have hp : ∀ m ∈ ms, (s2'.store m).PathsFit := fun m hm =>
    paths_of_head (g.frame.head m) (opens_paths hs ho hn m (by rw [← g.frame.models, hms]; exact hm))
  have ht : ∀ m ∈ ms, saveTarget i (s2'.store m) = i.destination ++ rest m := fun m hm => under_target hmode (hp m hm) (hu m hm)
  have o := hr.owned
  have eg : s2'.models.getD [] = ms := by rw [hms]; rfl
  have ind : Independent s2' i t ms := by
    refine ⟨fun m hm => o.live m (by rw [eg]; exact hm), ?_, temps, ?_⟩
    · refine List.Pairwise.imp_of_mem ?_ distinct
      intro a b ha hb hab q
      rw [ht a ha, ht b hb] at q
      apply hab
      rw [(hu a ha).1, (hu b hb).1, List.append_cancel_left q]
    · have h1 := o.models
      have h2 := o.diffs
      rw [eg] at h1 h2
      refine List.Pairwise.imp_of_mem ?_ (List.pairwise_iff_forall_sublist.2 (fun {a b} hab => (List.pairwise_iff_forall_sublist.1 h1 hab : a ≠ b)))
      intro a b ha hb hab d hd
      exact flatMap_nodup_disjoint h1 h2 hb ha (fun q => hab q.symm) hd
  obtain ⟨steps, h, hall⟩ := saveLoop_saved v t i ms s2' hi ind (fun m _ => hv m)
  refine ⟨steps, ?_, fun d => ?_⟩
  · unfold MLState.saveAllSteps
    rw [hms]
    cases ms with
    | nil => exact h
    | cons _ _ => exact h
  · obtain ⟨q1, q2⟩ := hall d
    refine ⟨fun m hm hx => ?_, fun u hx => q2 u (fun m hm hy q => hx m hm hy (q.symm.trans (ht m hm)))⟩
    rw [← ht m hm]
    exact q1 m hm hx

/-- **C64, defect.** When a patch is opened for a file or directory, leading directories are stripped from the names, but the directory of a
model is right afterwards only if a slash is left in its name or there was none in the patch: otherwise it is still the directory in the patch. -/
theorem C64_stripped_defect {e : Env} {s s1 : MLState} {i : Info} (hs : Reachable s) (hi : s.info = some i) (h : s.openAndDiff e = Res.ok (s1, true)) :
    ∃ r xs ms, parse e.win e.cmp s.heap (split (e.contents i.localDestination)) = Res.ok r ∧ r.models = some xs ∧ s1.models = some ms ∧
      ms.length = xs.length ∧ ∀ (k m : Nat) (x : DModel), ms[k]? = some m → xs[k]? = some x →
        (s1.store m).source = lstripSeparators x.source i.depth ∧
        (SplitOf (s1.store m).source (s1.store m).sourcePath (s1.store m).sourceFile ↔ ('/' ∈ (s1.store m).source ∨ '/' ∉ x.source)) ∧
        ('/' ∉ (s1.store m).source → (s1.store m).sourcePath = x.sourcePath ∧ (s1.store m).sourceFile = (s1.store m).source) ∧
        (s1.store m).destination = lstripSeparators x.destination i.depth ∧
        (SplitOf (s1.store m).destination (s1.store m).destinationPath (s1.store m).destinationFile ↔
          ('/' ∈ (s1.store m).destination ∨ '/' ∉ x.destination)) ∧
        ('/' ∉ (s1.store m).destination → (s1.store m).destinationPath = x.destinationPath ∧ (s1.store m).destinationFile = (s1.store m).destination) := by
  obtain ⟨r, xs, hr, hx, hh⟩ := heads_patch hs hi h
  have hp := parse_paths hr hx
  refine ⟨r, xs, _, hr, hx, hh.models, by rw [List.length_range', List.length_map], fun k m x hk hxk => ?_⟩
  have hm : m = s.nextModel + k := range_getElem hk
  subst hm
  have q := hh.head k (stripNames i.depth x) (by rw [List.getElem?_map, hxk]; rfl)
  unfold DModel.head stripNames DModel.setSourceFile DModel.setDestinationFile at q
  simp only [Prod.mk.injEq] at q
  obtain ⟨q1, q2, _, _, _, _, q7, q8, q9, q10⟩ := q
  obtain ⟨p1, p2⟩ := hp x (List.mem_of_getElem? hxk)
  refine ⟨q1, ?_, ?_, q2, ?_, ?_⟩
  · rw [q1, q7, q8]; exact splitPath_fits p1 _
  · rw [q1, q7, q8]
    intro hn
    rw [splitPath_noslash _ _ hn]
    exact ⟨rfl, rfl⟩
  · rw [q2, q9, q10]; exact splitPath_fits p2 _
  · rw [q2, q9, q10]
    intro hn
    rw [splitPath_noslash _ _ hn]
    exact ⟨rfl, rfl⟩

/-! ### The hypotheses are met -/

/-- The output of `diff -r -u old/ new/` for two changed files. -/
def dirDiff : UDiff where
  files := [
    { src := { name := str "old/b.txt", stamp := some (str "2024") }, dst := { name := str "new/b.txt" },
      hunks := [
        { srcLine := 3, dstLine := 3, function := some (str "int main()"), blocks := [.context [{ text := str "x" }],
            .change [{ text := str "old" }] [{ text := str "new", eol := false }]] }] },
    { src := { name := str "old/sub/a.txt", stamp := some (str "2024") }, dst := { name := str "new/sub/a.txt" },
      hunks := [{ srcLine := 1, dstLine := 1, shortDst := true, blocks := [.change [] [{ text := str "only" }]] }] }]
  trailer := []

theorem dirDiff_ok : dirDiff.Ok := by
  have hu : ∀ h ∈ dirDiff.files.flatMap UFile.hunks, h.Ok := by
    intro h hh
    simp only [dirDiff, List.flatMap_cons, List.flatMap_nil, List.append_nil, List.cons_append, List.nil_append, List.mem_cons,
      List.not_mem_nil, or_false] at hh
    rcases hh with rfl | rfl
    · exact ⟨⟨by decide, by decide, by decide, by decide⟩, ⟨by decide, by decide, by decide, by decide⟩,
        by intro f hf; simp only [Option.some.injEq] at hf; subst hf; decide,
        by intro b hb; simp only [List.mem_cons, List.not_mem_nil, or_false] at hb; rcases hb with rfl | rfl <;> simp [Block.NonEmpty],
        by simp [SeparatedBlocks, Block.Separated], by decide⟩
    · exact ⟨⟨by decide, by decide, by decide, by decide⟩, ⟨by decide, by decide, by decide, by decide⟩,
        by intro f hf; simp at hf,
        by intro b hb; simp only [List.mem_cons, List.not_mem_nil, or_false] at hb; subst hb; simp [Block.NonEmpty],
        by simp [SeparatedBlocks], by decide⟩
  have hh : ∀ n s : Str, (n ≠ [] ∧ '\t' ∉ n ∧ '\n' ∉ n) → (s ≠ [] ∧ '\t' ∉ s ∧ '\n' ∉ s) → Header.Ok { name := n, stamp := some s } := by
    intro n s h1 h2
    exact ⟨h1, by intro ts hts; simp only [Option.some.injEq] at hts; subst hts; exact h2, by intro e he; simp at he⟩
  have hh' : ∀ n : Str, (n ≠ [] ∧ '\t' ∉ n ∧ '\n' ∉ n) → Header.Ok { name := n } := by
    intro n h1
    exact ⟨h1, by intro ts hts; simp at hts, by intro e he; simp at he⟩
  have hb : ∀ f ∈ dirDiff.files, f.preamble = [] := by
    simp only [dirDiff]; decide
  refine ⟨?_, ?_, ?_, ?_⟩
  · intro f hf
    refine ⟨?_, ?_, fun h hm => hu h (List.mem_flatMap.2 ⟨f, hf, hm⟩), by rw [hb f hf]; simp⟩
    · simp only [dirDiff, List.mem_cons, List.not_mem_nil, or_false] at hf
      rcases hf with rfl | rfl <;> exact hh _ _ (by decide) (by decide)
    · simp only [dirDiff, List.mem_cons, List.not_mem_nil, or_false] at hf
      rcases hf with rfl | rfl <;> exact hh' _ (by decide)
  · intro f fs e
    simp only [dirDiff, List.cons.injEq] at e
    obtain ⟨rfl, rfl⟩ := e
    simp
  · intro f fs e g hg t ts ht
    simp only [dirDiff, List.cons.injEq] at e
    obtain ⟨rfl, rfl⟩ := e
    simp only [List.mem_cons, List.not_mem_nil, or_false] at hg
    subst hg
    cases ht
  · simp [dirDiff]

/-- The directories `old` and `new` are to be compared. -/
def dirInfo : Info := { mode := .ComparingDirs, localSource := str "old/", localDestination := str "new/", destination := str "file:///home/new/" }

def dirStart : MLState := (MLState.init none true ⟨fun _ => Diff.new 0 0 .Unchanged, 0⟩).setInfo (some dirInfo)

theorem dirStart_reachable : Reachable dirStart := ⟨none, true, ⟨fun _ => Diff.new 0 0 .Unchanged, 0⟩, [.setInfo (some dirInfo)], rfl⟩

def dirOutput : ProcessResult := ⟨1, .NormalExit, dirDiff.render.flatten, []⟩

/-- The diff program has finished: there is a model for each of the two files, and the files are in the destination directory. -/
theorem dir_opens : ∃ (s1 : MLState) (a b : Nat) (i : Info), OpensDiff (.diffFinished emptyEnv dirOutput) dirStart s1 ∧ s1.models = some [a, b] ∧ s1.info = some i ∧
    i.mode = .ComparingDirs ∧ i.localDestination = str "new/" ∧ i.destination = str "file:///home/new/" ∧
    ((s1.store a).destination = str "new/b.txt" ∧ (s1.store b).destination = str "new/sub/a.txt" ∨
     (s1.store a).destination = str "new/sub/a.txt" ∧ (s1.store b).destination = str "new/b.txt") := by
  obtain ⟨r, hr, _, hv⟩ := C26_unified dirDiff dirDiff_ok (by decide) emptyEnv.win emptyEnv.cmp dirStart.heap
  obtain ⟨s1, h1⟩ := C46_total (e := emptyEnv) (r := dirOutput) dirStart_reachable (by simp [dirStart, MLState.setInfo]) hr
  obtain ⟨xs, hx⟩ : ∃ xs, r.models = some xs := by
    cases hm : r.models with
    | none =>
      rw [hm] at hv
      exact absurd (hv _ (List.mem_cons_self ..)) (by decide)
    | some xs => exact ⟨xs, rfl⟩
  rw [hx] at hv
  have hf : dirOutput.finishedNormally = true := rfl
  obtain ⟨p, hp, hm⟩ := finished_models dirStart_reachable.wf h1 hf
  have ep : p = r := Res.ok.inj (hp.symm.trans hr)
  subst ep
  rw [hx] at hm
  have ho : OpensDiff (.diffFinished emptyEnv dirOutput) dirStart s1 := ⟨h1, hf, by rw [hm]; simp⟩
  obtain ⟨r', xs', hr', hx', hh⟩ := heads_finished dirStart_reachable hf h1 ho.2.2
  have er : r' = p := Res.ok.inj (hr'.symm.trans hr)
  subst er
  have ex : xs' = xs := by rw [hx] at hx'; cases hx'; rfl
  subst ex
  have hd := (hv.2.map MView.destination)
  have e1 : (List.map MView.destination ((dirDiff.files.filter UFile.changes).map (UFile.view (unescapePath emptyEnv.win)))) = [str "new/b.txt", str "new/sub/a.txt"] := by
    decide
  rw [e1, List.map_map] at hd
  have hl := hd.length_eq
  rw [List.length_map] at hl
  match xs', hl, hh, hd with
  | [x, y], _, hh, hd =>
    obtain ⟨j, hj, hmode, _⟩ := beyond_info (i := dirInfo) (beyond_finished h1) rfl
    have g0 := hh.head 0 x rfl
    have g1 := hh.head 1 y rfl
    unfold DModel.head at g0 g1
    simp only [Prod.mk.injEq] at g0 g1
    have hd : List.Perm [x.destination, y.destination] [str "new/b.txt", str "new/sub/a.txt"] := hd
    obtain ⟨hdst, hloc⟩ := ‹j.destination = dirInfo.destination ∧ j.localDestination = dirInfo.localDestination›
    refine ⟨s1, _, _, j, ho, hh.models, hj, hmode, hloc, hdst, ?_⟩
    rcases List.mem_cons.1 (hd.mem_iff.1 (List.mem_cons_self ..)) with hx1 | hx1
    · rw [hx1] at hd
      have hy := (List.perm_cons _).1 hd
      exact .inl ⟨g0.2.1.trans hx1, g1.2.1.trans (List.mem_singleton.1 (hy.mem_iff.1 (List.mem_cons_self ..)))⟩
    · have hx1 := List.mem_singleton.1 hx1
      rw [hx1] at hd
      have hy := (List.perm_cons _).1 (hd.trans (List.Perm.swap ..))
      exact .inr ⟨g0.2.1.trans hx1, g1.2.1.trans (List.mem_singleton.1 (hy.mem_iff.1 (List.mem_cons_self ..)))⟩

/-- Directories were compared and a difference was applied or unapplied: the hypotheses of `C64_names`, `C64_target` and `C64_save_all` are met, and those of `C63_all_crash`. -/
theorem dirs_edited : ∃ (s1 s2 : MLState) (ops : List UserOp) (i : Info) (a b : Nat) (rest : Nat → Str), OpensDiff (.diffFinished emptyEnv dirOutput) dirStart s1 ∧
    (∀ o ∈ ops, o.Ok s1) ∧ runUser ops s1 = Res.ok s2 ∧ s2.info = some i ∧ i.mode = .ComparingDirs ∧ s2.models = some [a, b] ∧
    (∀ m ∈ [a, b], Under i.localDestination (s2.store m).destination (rest m)) ∧
    [a, b].Pairwise (fun m m' => (s2.store m).destination ≠ (s2.store m').destination) ∧
    (∃ m ∈ [a, b], (s2.store m).hasUnsavedChanges s2.heap = true) ∧ ({} : MLState.SaveRun).toSaveEnv.failure i.mode = none ∧
    i.localDestination = str "new/" ∧ i.destination = str "file:///home/new/" ∧
    ∀ m ∈ [a, b], (s2.store m).destination = str "new/b.txt" ∨ (s2.store m).destination = str "new/sub/a.txt" := by
  obtain ⟨s1, a, b, i, h1, hm, hi, hmode, hloc, hdest, hd⟩ := dir_opens
  have u1 := h1.inUse dirStart_reachable
  obtain ⟨s2, m, u2, hx, hu, _, hop⟩ := some_unsaved u1
  obtain ⟨_, _, ms, k, j, m1, d1, o1, a1⟩ := u1.facts
  have key : ∃ ops : List UserOp, (∀ o ∈ ops, o.Ok s1) ∧ runUser ops s1 = Res.ok s2 := by
    rcases hop with rfl | ⟨c, hc⟩
    · exact ⟨[], by simp, rfl⟩
    · refine ⟨[.applySlot c], by simp [UserOp.Ok], ?_⟩
      show Res.bind _ _ = _
      rw [hc]; rfl
  obtain ⟨ops, ho, hrun⟩ := key
  obtain ⟨s2', _, _, _, _, g⟩ := runUser_ok ops o1 a1 ho
  have e : s2' = s2 := Res.ok.inj (g.ok.symm.trans hrun)
  subst e
  have hm2 : s2'.models = some [a, b] := g.frame.models.trans hm
  have hdst : ∀ x, (s2'.store x).destination = (s1.store x).destination := by
    intro x
    have := g.frame.head x
    unfold DModel.head at this
    simp only [Prod.mk.injEq] at this
    exact this.2.1
  have hnames : ∀ x ∈ [a, b], (s2'.store x).destination = str "new/b.txt" ∨ (s2'.store x).destination = str "new/sub/a.txt" := by
    intro x hx
    simp only [List.mem_cons, List.not_mem_nil, or_false] at hx
    rw [hdst]
    rcases hx with rfl | rfl <;> rcases hd with hd | hd <;> simp [hd.1, hd.2]
  refine ⟨s1, s2', ops, i, a, b, fun x => (s2'.store x).destination.drop 4, h1, ho, hrun, g.frame.info.trans hi, hmode, hm2, ?_, ?_, ?_, ?_, hloc, hdest, hnames⟩
  · intro x hx
    have := hnames x hx
    rw [hloc]
    dsimp only
    rcases this with q | q <;> rw [q] <;> exact ⟨by decide, .inr (.inl (by decide))⟩
  · refine List.pairwise_pair.2 ?_
    rw [hdst, hdst]
    rcases hd with hd | hd <;> rw [hd.1, hd.2] <;> decide
  · exact ⟨m, by rw [hm2] at hx; exact hx, hu⟩
  · rw [hmode]; rfl

/-- A patch for one file in a directory. -/
def dirPatch : UDiff := { dirDiff with files := dirDiff.files.take 1 }

theorem dirPatch_ok : dirPatch.Ok := by
  have h := dirDiff_ok
  refine ⟨fun f hf => h.1 f (List.mem_of_mem_take hf), ?_, ?_, ?_⟩
  · intro f fs e
    simp only [dirPatch, dirDiff, List.take_succ_cons, List.take_zero, List.cons.injEq] at e
    obtain ⟨rfl, rfl⟩ := e
    simp
  · intro f fs e g hg
    simp only [dirPatch, dirDiff, List.take_succ_cons, List.take_zero, List.cons.injEq] at e
    obtain ⟨rfl, rfl⟩ := e
    cases hg
  · simp [dirPatch, dirDiff]

/-- The file `b.txt` and the patch. -/
def dirPatchEnv : Env :=
  { emptyEnv with
    isFile := fun _ => true, contents := fun p => if p = str "p.diff" then dirPatch.render.flatten else exampleOld }

/-- One leading directory is to be stripped. -/
def dirPatchStart : MLState := (MLState.init none true ⟨fun _ => Diff.new 0 0 .Unchanged, 0⟩).setInfo
  (some { mode := .BlendingFile, localSource := str "b.txt", localDestination := str "p.diff", depth := 1 })

theorem dirPatchStart_reachable : Reachable dirPatchStart :=
  ⟨none, true, ⟨fun _ => Diff.new 0 0 .Unchanged, 0⟩,
    [.setInfo (some { mode := .BlendingFile, localSource := str "b.txt", localDestination := str "p.diff", depth := 1 })], rfl⟩

/-- The patch names `old/b.txt`; after one directory was stripped, the model is named `b.txt`, but its directory is still `old/`. -/
example : ∃ (s1 : MLState) (m : Nat), dirPatchStart.openAndDiff dirPatchEnv = Res.ok (s1, true) ∧ s1.models = some [m] ∧ (s1.store m).source = str "b.txt" ∧
    ¬ SplitOf (s1.store m).source (s1.store m).sourcePath (s1.store m).sourceFile := by
  obtain ⟨s1, ms, fs, h1, h2, h3, h4, h5⟩ := C48_patch (e := dirPatchEnv) dirPatchStart_reachable rfl dirPatch
    (show (if str "p.diff" = str "p.diff" then dirPatch.render.flatten else exampleOld) = _ from if_pos rfl) dirPatch_ok
    ⟨_, List.mem_cons_self .., by decide⟩ (.inr ⟨rfl, rfl, by decide⟩) (fun _ => exampleNew) (by
      intro f hf hc
      simp only [dirPatch, dirDiff, List.take_succ_cons, List.take_zero, List.mem_cons, List.not_mem_nil, or_false] at hf
      subst hf
      exact example_patches)
  have hl : ms.length = 1 := by rw [h4, h3.length_eq]; decide
  have hf : ∀ f ∈ fs, f.src.name = str "old/b.txt" := by
    intro f hf
    have := (List.mem_filter.1 (h3.mem_iff.1 hf)).1
    simp only [dirPatch, dirDiff, List.take_succ_cons, List.take_zero, List.mem_cons, List.not_mem_nil, or_false] at this
    subst this
    rfl
  obtain ⟨r, xs, ms', hr, hx, h2', hlx, hall⟩ := C64_stripped_defect dirPatchStart_reachable rfl h1
  have em : ms' = ms := by rw [h2] at h2'; cases h2'; rfl
  subst em
  have hv := C26_unified dirPatch dirPatch_ok (by decide) dirPatchEnv.win dirPatchEnv.cmp dirPatchStart.heap
  match ms', fs, xs, hl, h4, hlx, h2, h5, hf, hx, hall with
  | [m], [f], [x], _, _, _, h2, h5, hf, hx, hall =>
    have hs : (s1.store m).source = str "b.txt" := by
      rw [(h5 0 m f rfl rfl).1, hf f (by simp)]; decide
    have hxs : x.source = str "old/b.txt" := by
      obtain ⟨r', hr', _, hv⟩ := hv
      have er : r' = r := by
        refine Res.ok.inj (hr'.symm.trans ?_)
        rw [← hr]
        show _ = parse _ _ _ (split (if str "p.diff" = str "p.diff" then dirPatch.render.flatten else exampleOld))
        rw [if_pos rfl]
      subst er
      rw [hx] at hv
      have := hv.2.map MView.source
      have e1 : (List.map MView.source ((dirPatch.files.filter UFile.changes).map (UFile.view (unescapePath dirPatchEnv.win)))) = [str "old/b.txt"] := by decide
      rw [e1] at this
      have := List.singleton_perm_singleton.1 this
      exact this
    refine ⟨s1, m, h1, h2, hs, ?_⟩
    rw [(hall 0 m x rfl rfl).2.1, hs, hxs]
    decide

end KompareDiff2
