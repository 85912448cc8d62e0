import Verif.Spec.PatchFile
import Verif.Props.Sitting
import Verif.Props.SaveAll
/-
Property theorems C80: a patch opened for a file or directory.
-/
namespace KompareDiff2
open Spec

theorem fileAfter_other (url c : Str) {a : List Event} (h : ∀ t, Event.upload url t ∉ a) : fileAfter url c a = c := by
  induction a generalizing c with
  | nil => rfl
  | cons e a ih =>
    have ha : ∀ t, Event.upload url t ∉ a := fun t q => h t (List.mem_cons_of_mem _ q)
    cases e with
    | upload u t =>
      show fileAfter url (if u = url then t else c) a = c
      rw [if_neg (by
        intro q
        subst q
        exact h t (List.mem_cons_self ..))]
      exact ih c ha
    | _ => exact ih c ha

/-- Once the file was written, it does not matter what it was. -/
theorem fileAfter_written (url c c' : Str) {a : List Event} {t : Str} (h : Event.upload url t ∈ a) : fileAfter url c a = fileAfter url c' a := by
  induction a generalizing c c' with
  | nil => cases h
  | cons e a ih =>
    rcases List.mem_cons.1 h with q | q
    · subst q
      show fileAfter url (if url = url then t else c) a = fileAfter url (if url = url then t else c') a
      rw [if_pos rfl, if_pos rfl]
    · cases e <;> exact ih _ _ q

theorem flatMap_one {α β : Type} (G : α → List β) (F : α → β) : ∀ l : List α, (∀ x ∈ l, G x = [F x]) → l.flatMap G = l.map F := by
  intro l
  induction l with
  | nil => intro _; rfl
  | cons a l ih =>
    intro h
    rw [List.flatMap_cons, h a (by simp), ih (fun x hx => h x (List.mem_cons_of_mem _ hx))]
    rfl

/-- A model that shows the whole file: the text at the place it is saved to. -/
theorem ready_overwrites {s : MLState} {m : Nat} {i : Info} {S : Str} {T : List Str} (o : Opened s [m]) (hs : Selected s [m])
    (hi : s.info = some i) (r : Ready s.heap (s.store m) (split S) T) :
    Overwrites s m (saveTarget i (s.store m)) S T := by
  intro ops hops
  obtain ⟨s', h1, ⟨new, h2, h3⟩, f⟩ := kept_run ops o hs hi hops r.covers (fun x hx hne => absurd (List.mem_singleton.1 hx) hne)
  obtain ⟨s'', k1, log, k2, k3⟩ := spares_run ops o hs hi hops
  have e1 : s'' = s' := Res.ok.inj (k1.symm.trans h1)
  subst e1
  have e2 : log = new := List.append_cancel_left (k2.symm.trans h2)
  subst e2
  have r' : Ready s''.heap (s''.store m) (split S) T := r.frame (f.hunks m) (f.differences m) f.cells (Nat.le_of_eq f.heapNext.symm)
  have r'' : Ready (lastMarks s''.heap) (s''.store m) (split S) T := r'.frame rfl rfl (lastMarks_same _) (Nat.le_refl _)
  refine ⟨s'', log, h1, h2, ?_, fun before => ⟨fun q => fileAfter_other _ _ q, fun ⟨t, q⟩ => ?_⟩⟩
  · intro u t q
    obtain ⟨x, hx, e⟩ := k3 u t q
    rw [List.mem_singleton.1 hx] at e
    exact e
  · rw [fileAfter_written _ _ (lastText s m) q, h3]
    refine ⟨?_, fun hu => ?_⟩
    · obtain ⟨out, ho, hsv⟩ := r''.saved
      exact ⟨out, ho, hsv⟩
    · rw [lastText_saved r'.covers hu]
      refine ⟨fun hb => by simpa using r'.all false hb, fun hb => ?_⟩
      have := r'.all true hb
      rw [if_pos rfl, show (split S).flatten = S from splitAux_flatten [] S] at this
      exact this

/-- The models when a patch has been opened: all flags, and where they are saved. -/
theorem patch_flags {s1 : MLState} {ms : List Nat} {b : Bool} (o : Opened s1 ms)
    (h : ∀ m ∈ ms, ∀ d ∈ (s1.store m).differences, (s1.heap.cell d).applied = b ∧ (s1.heap.cell d).unsaved = b) :
    s1.hasUnsavedChanges = b ∧ ∀ m ∈ ms, (s1.store m).hasUnsavedChanges s1.heap = b := by
  have key : ∀ m ∈ ms, (s1.store m).hasUnsavedChanges s1.heap = b := by
    intro m hm
    unfold DModel.hasUnsavedChanges
    obtain ⟨d, l, e⟩ := List.exists_cons_of_ne_nil (o.diffs m hm)
    cases b with
    | true =>
      rw [List.any_eq_true]
      exact ⟨d, by rw [e]; simp, (h m hm d (by rw [e]; simp)).2⟩
    | false =>
      rw [List.any_eq_false]
      intro x hx
      rw [(h m hm x hx).2]
      simp
  refine ⟨?_, key⟩
  unfold MLState.hasUnsavedChanges
  rw [o.models]
  obtain ⟨m, l, e⟩ := List.exists_cons_of_ne_nil o.ne
  cases b with
  | true =>
    show ms.any _ = true
    rw [List.any_eq_true]
    exact ⟨m, by rw [e]; simp, key m (by rw [e]; simp)⟩
  | false =>
    show ms.any _ = false
    rw [List.any_eq_false]
    intro x hx
    rw [key x hx]
    simp

theorem each_file {ms : List Nat} {fs : List UFile} (hlen : ms.length = fs.length) : ∀ x ∈ ms, ∃ (k : Nat) (f : UFile), ms[k]? = some x ∧ fs[k]? = some f := by
  intro x hx
  obtain ⟨k, hk, e⟩ := List.mem_iff_getElem.1 hx
  exact ⟨k, fs[k]'(by omega), by rw [List.getElem?_eq_getElem hk, e], List.getElem?_eq_getElem _⟩

/-- **C80.** Opening a patch writes nothing, whatever the patch is and whether it can be opened or not. -/
theorem C80_opening {e : Env} {s s1 : MLState} {b : Bool} (h : s.openAndDiff e = Res.ok (s1, b)) :
    ∃ new, s1.log = s.log ++ new ∧ ∀ u t, Event.upload u t ∉ new := by
  have emits : ∀ {a b c : MLState}, (∃ new, b.log = a.log ++ new ∧ ∀ u t, Event.upload u t ∉ new) →
      (∃ new, c.log = b.log ++ new ∧ ∀ u t, Event.upload u t ∉ new) → ∃ new, c.log = a.log ++ new ∧ ∀ u t, Event.upload u t ∉ new := by
    rintro a b c ⟨n1, e1, f1⟩ ⟨n2, e2, f2⟩
    refine ⟨n1 ++ n2, by rw [e2, e1, List.append_assoc], fun u t q => ?_⟩
    rcases List.mem_append.1 q with q | q
    · exact f1 u t q
    · exact f2 u t q
  have emit : ∀ (a : MLState) (ev : Event), (∀ u t, Event.upload u t ≠ ev) → ∃ new, (a.emit ev).log = a.log ++ new ∧ ∀ u t, Event.upload u t ∉ new :=
    fun a ev hne => ⟨[ev], rfl, fun u t q => hne u t (List.mem_singleton.1 q)⟩
  have quiet : ∀ {a b : MLState}, b.log = a.log → ∃ new, b.log = a.log ++ new ∧ ∀ u t, Event.upload u t ∉ new :=
    fun q => ⟨[], by rw [q, List.append_nil], by simp⟩
  unfold MLState.openAndDiff at h
  split at h
  · cases h
  · rename_i i hi
    obtain ⟨⟨t, ok⟩, h1, h⟩ := Res.bind_eq_ok.1 h
    have p1 : ∃ new, t.log = s.log ++ new ∧ ∀ u x, Event.upload u x ∉ new := by
      refine emits (b := s.clear) (emit _ _ (by simp)) ?_
      obtain ⟨⟨r, _, _, _, c1, c2⟩, _⟩ := parseDiffOutput_events h1
      cases hm : r.models with
      | none => exact ⟨_, c1 hm, by simp⟩
      | some ms =>
        obtain ⟨x, xs, _, hl⟩ := c2 ms hm
        rw [List.append_assoc, List.append_assoc] at hl
        refine ⟨_, hl, fun u t q => ?_⟩
        rcases List.mem_append.1 q with q | q
        · cases List.mem_singleton.1 q
        · rcases List.mem_append.1 q with q | q
          · split at q
            · cases List.mem_singleton.1 q
            · cases q
          · cases List.mem_singleton.1 q
    dsimp only at h
    split at h
    · cases h
      exact emits p1 (emit _ _ (by simp))
    · obtain ⟨t2, h2, h⟩ := Res.bind_eq_ok.1 h
      obtain ⟨⟨t3, ok3⟩, h3, h⟩ := Res.bind_eq_ok.1 h
      have p3 := emits (emits p1 (quiet (quiet_setDepth h2).log)) (quiet (quiet_blendOriginal h3).log)
      dsimp only at h
      split at h
      · cases h
        exact emits p3 (emit _ _ (by simp))
      · obtain ⟨t4, h4, h⟩ := Res.bind_eq_ok.1 h
        cases h
        have p4 : t4.log = t3.log := by
          unfold MLState.updateActions at h4
          split at h4
          · obtain ⟨_, _, h4⟩ := Res.bind_eq_ok.mp h4
            obtain ⟨_, _, h4⟩ := Res.bind_eq_ok.mp h4
            obtain ⟨_, _, h4⟩ := Res.bind_eq_ok.mp h4
            obtain ⟨_, _, h4⟩ := Res.bind_eq_ok.mp h4
            rw [← Res.ok.inj h4]
          · rw [← Res.ok.inj h4]
        exact emits (emits (emits p3 (quiet p4)) (emit _ _ (by simp))) (emit _ _ (by simp))

/-- **C80, a patch for a file.** A patch that changes one file is opened for that file.  Whether there are unsaved changes
is `Info.applied`.  Whatever the user does afterwards, only the patch is written, never the file: the patch is as it was until the first save
that does not fail, and from then on the text of the file, with exactly those changes made that were not marked at the last save, is in its place. -/
theorem C80_file {e : Env} {s : MLState} {i : Info} (hs : Reachable s) (hi : s.info = some i) (hmode : i.mode = .BlendingFile)
    (D : UDiff) (hout : e.contents i.localDestination = D.render.flatten) (ok : D.Ok) {f : UFile} (hf : D.files.filter UFile.changes = [f])
    (hd : e.isDir i.localSource = false) (hfile : e.isFile i.localSource = true) (new : Str)
    (hp : Patches 0 (f.hunks.map UHunk.edit) (split (e.contents i.localSource)) (split new)) :
    ∃ s1 m, s.openAndDiff e = Res.ok (s1, true) ∧ s1.models = some [m] ∧ s1.hasUnsavedChanges = i.applied ∧
      Overwrites s1 m i.destination (e.contents i.localSource) (split new) := by
  have ho : ∀ x, original e i.localSource x = e.contents i.localSource := by
    intro x; unfold original; rw [hd]; rfl
  have hc : ∃ g ∈ D.files, g.changes = true := by
    have : f ∈ D.files.filter UFile.changes := by rw [hf]; exact List.mem_singleton.2 rfl
    exact ⟨f, (List.mem_filter.1 this).1, (List.mem_filter.1 this).2⟩
  obtain ⟨s1, ms, fs, h1, o, sel, ⟨i1, hi1, hso⟩, hfs, hlen, hst⟩ := patch_ready hs hi D hout ok hc
    (.inr ⟨hd, hfile, by rw [hf]; rfl⟩) (fun _ => split new) (by
      intro g hg hc
      have : g ∈ D.files.filter UFile.changes := List.mem_filter.2 ⟨hg, hc⟩
      rw [hf] at this
      rw [List.mem_singleton.1 this, ho]
      exact hp)
  have fl := patch_flags (b := i.applied) o (fun m hm => by
    obtain ⟨k, g, hk, hg⟩ := each_file hlen m hm
    exact (hst k m g hk hg).2.1)
  rw [hf] at hfs
  have efs : fs = [f] := List.perm_singleton.1 hfs
  subst efs
  obtain ⟨m, rfl⟩ : ∃ m, ms = [m] := List.length_eq_one_iff.1 hlen
  obtain ⟨hm1, hd1, _⟩ := hso.fields
  obtain ⟨_, _, q4⟩ := hst 0 m f rfl rfl
  refine ⟨s1, m, h1, o.models, fl.1, ?_⟩
  have := ready_overwrites o sel hi1 q4
  rw [ho, (C36_target_defect (by rw [hm1, hmode]; decide) (s1.store m) (s1.store m)).1, hd1] at this
  exact this

/-- **C80, a patch for a directory or file.** In every mode but the comparison of directories: whatever the user does after a patch was opened,
nothing is written but `Info.destination`, that is, the patch. -/
theorem C80_only_patch {e : Env} {s : MLState} {i : Info} (hs : Reachable s) (hi : s.info = some i) (hmode : i.mode ≠ .ComparingDirs)
    (D : UDiff) (hout : e.contents i.localDestination = D.render.flatten) (ok : D.Ok) (hc : ∃ f ∈ D.files, f.changes = true)
    (hu : e.isDir i.localSource = true ∨
      (e.isDir i.localSource = false ∧ e.isFile i.localSource = true ∧ (D.files.filter UFile.changes).length = 1))
    (T : UFile → List Str)
    (hp : ∀ f ∈ D.files, f.changes = true → Patches 0 (f.hunks.map UHunk.edit)
      (split (original e i.localSource (lstripSeparators (unescapePath e.win f.src.name) i.depth))) (T f)) :
    ∃ s1, s.openAndDiff e = Res.ok (s1, true) ∧ s1.hasUnsavedChanges = i.applied ∧
      ∀ ops : List UserOp, (∀ op ∈ ops, op.Ok s1) → ∃ s' log, runUser ops s1 = Res.ok s' ∧ s'.log = s1.log ++ log ∧
        ∀ u t, Event.upload u t ∈ log → u = i.destination := by
  obtain ⟨s1, ms, fs, h1, o, sel, ⟨i1, hi1, hso⟩, hfs, hlen, hst⟩ := patch_ready hs hi D hout ok hc hu T hp
  have fl := patch_flags (b := i.applied) o (fun m hm => by
    obtain ⟨k, g, hk, hg⟩ := each_file hlen m hm
    exact (hst k m g hk hg).2.1)
  obtain ⟨hm1, hd1, _⟩ := hso.fields
  refine ⟨s1, h1, fl.1, fun ops hops => ?_⟩
  obtain ⟨s', h2, log, h3, h4⟩ := spares_run ops o sel hi1 hops
  exact ⟨s', log, h2, h3, fun u t q => by
    obtain ⟨x, _, e⟩ := h4 u t q
    exact e.trans ((C36_target_defect (by rw [hm1]; exact hmode) (s1.store x) (s1.store x)).1.trans hd1)⟩

/-- **C80, defect: saving at once destroys the patch.** With `Info.applied` (the default), "save all" right after a patch was opened uploads to
the place of the patch, one after the other, the *unpatched* texts of all files the patch changes.  What remains is the last of them. -/
theorem C80_save_all_defect {e : Env} {s : MLState} {i : Info} (hs : Reachable s) (hi : s.info = some i) (hmode : i.mode ≠ .ComparingDirs)
    (D : UDiff) (hout : e.contents i.localDestination = D.render.flatten) (ok : D.Ok) (hc : ∃ f ∈ D.files, f.changes = true)
    (hu : e.isDir i.localSource = true ∨
      (e.isDir i.localSource = false ∧ e.isFile i.localSource = true ∧ (D.files.filter UFile.changes).length = 1))
    (T : UFile → List Str)
    (hp : ∀ f ∈ D.files, f.changes = true → Patches 0 (f.hunks.map UHunk.edit)
      (split (original e i.localSource (lstripSeparators (unescapePath e.win f.src.name) i.depth))) (T f))
    (happ : i.applied = true) (v : Nat → MLState.SaveEnv) (hv : ∀ m, (v m).failure i.mode = none) :
    ∃ (s1 s2 : MLState) (fs : List UFile), s.openAndDiff e = Res.ok (s1, true) ∧ s1.saveAll v = Res.ok (s2, true) ∧ s2.hasUnsavedChanges = false ∧
      fs.Perm (D.files.filter UFile.changes) ∧
      s2.log = s1.log ++ fs.map (fun f => .upload i.destination (original e i.localSource (lstripSeparators (unescapePath e.win f.src.name) i.depth))) ∧
      ∃ f ∈ D.files, f.changes = true ∧ ∀ before, fileAfter i.destination before (s2.log.drop s1.log.length) =
        original e i.localSource (lstripSeparators (unescapePath e.win f.src.name) i.depth) := by
  obtain ⟨s1, ms, fs, h1, o, sel, ⟨i1, hi1, hso⟩, hfs, hlen, hst⟩ := patch_ready hs hi D hout ok hc hu T hp
  rw [happ] at hst
  have fl := patch_flags (b := true) o (fun m hm => by
    obtain ⟨k, g, hk, hg⟩ := each_file hlen m hm
    exact (hst k m g hk hg).2.1)
  obtain ⟨hm1, hd1, _⟩ := hso.fields
  have hs1 : Reachable s1 := by
    have hop : OpensDiff (.openFileAndDiff e) s s1 := h1
    exact hop.reachable hs
  obtain ⟨done, hh, b, k1, k2, k3, k4⟩ := C36_saveAll_any v hs1 o.models o.ne hi1
  obtain ⟨s2, j1, j2, _⟩ := C36_saveAll (v := v) o.models o.ne o.live hi1 (fun m _ => by rw [hm1]; exact hv m)
  rw [k1] at j1
  simp only [Res.ok.injEq, Prod.mk.injEq] at j1
  obtain ⟨j3, rfl⟩ := j1
  obtain ⟨rfl, _⟩ := k3 rfl
  have hlog : s2.log = s1.log ++ fs.map (fun f => .upload i.destination (original e i.localSource (lstripSeparators (unescapePath e.win f.src.name) i.depth))) := by
    rw [← j3]
    show s1.log ++ done.flatMap (saveReport v i1 s1) = _
    congr 1
    have hone : ∀ x ∈ done, saveReport v i1 s1 x = [.upload i.destination (original e i.localSource (s1.store x).source)] := by
      intro x hx
      obtain ⟨k, g, hk, hg⟩ := each_file hlen x hx
      obtain ⟨q1, q2, q3⟩ := hst k x g hk hg
      unfold saveReport
      rw [if_pos (fl.2 x hx), hm1, hv x, (C36_target_defect (by rw [hm1]; exact hmode) (s1.store x) (s1.store x)).1, hd1]
      have := q3.all true (fun d hd => (q2 d hd).1)
      rw [if_pos rfl, show ∀ S, (split S).flatten = S from fun S => splitAux_flatten [] S] at this
      rw [this]
    rw [flatMap_one _ _ _ hone]
    refine List.ext_getElem? (fun k => ?_)
    rw [List.getElem?_map, List.getElem?_map]
    by_cases hk : k < done.length
    · have hk' : k < fs.length := by omega
      rw [List.getElem?_eq_getElem hk, List.getElem?_eq_getElem hk', Option.map_some, Option.map_some,
        (hst k _ _ (List.getElem?_eq_getElem hk) (List.getElem?_eq_getElem hk')).1]
    · rw [List.getElem?_eq_none (by omega), List.getElem?_eq_none (by omega)]
      rfl
  have hne : fs ≠ [] := by
    intro q
    rw [q] at hlen
    exact o.ne (List.length_eq_zero_iff.1 hlen)
  obtain ⟨l, g, hg⟩ : ∃ l g, fs = l ++ [g] := ⟨_, _, (List.dropLast_concat_getLast hne).symm⟩
  obtain ⟨hF, hFc⟩ := List.mem_filter.1 (hfs.mem_iff.1 (show g ∈ fs by rw [hg]; simp))
  refine ⟨s1, s2, fs, h1, by rw [k1, j3], j2, hfs, hlog, g, hF, hFc, fun before => ?_⟩
  rw [hlog, List.drop_left, hg, List.map_append, fileAfter_append]
  show (if i.destination = i.destination then _ else _) = _
  rw [if_pos rfl]

theorem still_run : ∀ (ops : List UserOp) {s s' : MLState}, (∀ op ∈ ops, saving op = false) → runUser ops s = Res.ok s' → Still s s' := by
  intro ops
  induction ops with
  | nil => intro s s' _ h; cases h; exact .refl s
  | cons op ops ih =>
    intro s s' hn h
    obtain ⟨t, h1, h2⟩ := Res.bind_eq_ok.mp h
    have hst : op.still = true := by
      have := hn op (by simp)
      cases op <;> first | rfl | cases this
    exact (still_user hst h1).trans (ih (fun o ho => hn o (List.mem_cons_of_mem _ ho)) h2)

theorem unapplyAll_flags {s s' : MLState} {m : Nat} (hsel : s.selectedModel = some m) (hlive : m ∉ s.dead) (h : UserOp.unapplyAll.run s = Res.ok s') :
    ∀ d ∈ (s'.store m).differences, (s'.heap.cell d).applied = false := by
  obtain ⟨t, h1, h2⟩ := Res.bind_eq_ok.mp h
  unfold MLState.slotApplyAllDifferences at h1
  obtain ⟨m', hm', h1⟩ := Res.bind_eq_ok.mp h1
  have em : m' = m := by
    rw [hsel] at hm'
    unfold MLState.model at hm'
    dsimp only at hm'
    rw [if_neg hlive] at hm'
    exact (Res.ok.inj hm').symm
  subst em
  have hu : s'.store = t.store ∧ s'.heap = t.heap := by
    unfold MLState.updateActions at h2
    split at h2
    · obtain ⟨_, _, h2⟩ := Res.bind_eq_ok.mp h2
      obtain ⟨_, _, h2⟩ := Res.bind_eq_ok.mp h2
      obtain ⟨_, _, h2⟩ := Res.bind_eq_ok.mp h2
      obtain ⟨_, _, h2⟩ := Res.bind_eq_ok.mp h2
      rw [← Res.ok.inj h2]; exact ⟨rfl, rfl⟩
    · rw [← Res.ok.inj h2]; exact ⟨rfl, rfl⟩
  rw [hu.1, hu.2, ← Res.ok.inj h1]
  intro d hd
  have hd' : d ∈ (s.store m').differences := by simpa [MLState.emit, MLState.setModel, DModel.applyAllDifferences] using hd
  exact (applied_applyAllLoop false (s.store m').differences s.heap 0 d).trans (if_pos hd')

/-- **C80, defect: the patched text cannot be saved.** After a patch was opened for a file, with `Info.applied` (the default), saving writes
the text of the file without the patch over the patch.  Unmarking all differences instead (after whatever else was done without saving), which is how the patched text is chosen, makes the
list believe that everything is saved: the save then writes nothing at all. -/
theorem C80_save_defect {e : Env} {s : MLState} {i : Info} (hs : Reachable s) (hi : s.info = some i) (hmode : i.mode = .BlendingFile)
    (D : UDiff) (hout : e.contents i.localDestination = D.render.flatten) (ok : D.Ok) {f : UFile} (hf : D.files.filter UFile.changes = [f])
    (hd : e.isDir i.localSource = false) (hfile : e.isFile i.localSource = true) (new : Str)
    (hp : Patches 0 (f.hunks.map UHunk.edit) (split (e.contents i.localSource)) (split new))
    (happ : i.applied = true) (v : MLState.SaveEnv) (hv : v.failure .BlendingFile = none) :
    ∃ s1, s.openAndDiff e = Res.ok (s1, true) ∧
      (∃ s2 log, runUser [.save v] s1 = Res.ok s2 ∧ s2.log = s1.log ++ log ∧
        ∀ before, fileAfter i.destination before log = e.contents i.localSource) ∧
      (∀ ops : List UserOp, (∀ op ∈ ops, op.Ok s1 ∧ saving op = false) →
        ∃ s2 log, runUser (ops ++ [.unapplyAll, .save v]) s1 = Res.ok s2 ∧ s2.log = s1.log ++ log ∧ s2.hasUnsavedChanges = false ∧
          ∀ u t, Event.upload u t ∉ log) ∧
      (∃ s2 log, runUser [.save v, .unapplyAll, .save v] s1 = Res.ok s2 ∧ s2.log = s1.log ++ log ∧
        ∀ before, fileAfter i.destination before log = new) := by
  have ho : ∀ x, original e i.localSource x = e.contents i.localSource := by
    intro x; unfold original; rw [hd]; rfl
  have hc : ∃ g ∈ D.files, g.changes = true := by
    have : f ∈ D.files.filter UFile.changes := by rw [hf]; exact List.mem_singleton.2 rfl
    exact ⟨f, (List.mem_filter.1 this).1, (List.mem_filter.1 this).2⟩
  obtain ⟨s1, ms, fs, h1, o, sel, ⟨i1, hi1, hso⟩, hfs, hlen, hst⟩ := patch_ready hs hi D hout ok hc
    (.inr ⟨hd, hfile, by rw [hf]; rfl⟩) (fun _ => split new) (by
      intro g hg hc
      have : g ∈ D.files.filter UFile.changes := List.mem_filter.2 ⟨hg, hc⟩
      rw [hf] at this
      rw [List.mem_singleton.1 this, ho]
      exact hp)
  rw [happ] at hst
  rw [hf] at hfs
  have efs : fs = [f] := List.perm_singleton.1 hfs
  subst efs
  obtain ⟨m, rfl⟩ : ∃ m, ms = [m] := List.length_eq_one_iff.1 hlen
  obtain ⟨hm1, hd1, _⟩ := hso.fields
  obtain ⟨_, q3, q4⟩ := hst 0 m f rfl rfl
  have ht : saveTarget i1 (s1.store m) = i.destination := (C36_target_defect (by rw [hm1, hmode]; decide) (s1.store m) (s1.store m)).1.trans hd1
  have hv1 : v.failure i1.mode = none := by rw [hm1, hmode]; exact hv
  have hlive := o.live m (List.mem_singleton.2 rfl)
  have hselm : s1.selectedModel = some m := by
    obtain ⟨k, j, m', d, a⟩ := sel
    rw [a.selectedModel, List.mem_singleton.1 (List.mem_of_getElem? a.model)]
  obtain ⟨d0, l0, e0⟩ := List.exists_cons_of_ne_nil (o.diffs m (List.mem_singleton.2 rfl))
  have hd0 : d0 ∈ (s1.store m).differences := by rw [e0]; simp
  obtain ⟨hh, k1, k2, _⟩ := ((C36_save (v := v) hlive hi1).2 ⟨d0, hd0, (q3 d0 hd0).2⟩).2 hv1
  have hov := ready_overwrites o sel hi1 q4
  rw [ht, ho] at hov
  have hsave : ∃ s2, s1.slotSaveDestination v = Res.ok s2 ∧ s2.log = s1.log ++ [.upload i.destination (e.contents i.localSource), .updateActions] ∧
      s2.selectedModel = some m ∧ s2.dead = s1.dead ∧ s2.info = some i1 := by
    have hS : (s1.store m).savedText s1.heap = e.contents i.localSource := by
      have := q4.all true (fun d hd => (q3 d hd).1)
      rw [if_pos rfl, show ∀ S, (split S).flatten = S from fun S => splitAux_flatten [] S, ho] at this
      exact this
    rw [ht, hS] at k1
    unfold MLState.slotSaveDestination
    rw [hselm]
    dsimp only
    rw [k1, Res.bind_ok]
    dsimp only
    split
    · refine ⟨_, rfl, ?_, hselm, rfl, hi1⟩
      show (s1.log ++ _) ++ _ = _
      rw [List.append_assoc]; rfl
    · refine ⟨_, rfl, ?_, hselm, rfl, hi1⟩
      show (s1.log ++ _) ++ _ = _
      rw [List.append_assoc]; rfl
  obtain ⟨s2, j1, j2, j3, j4, j5⟩ := hsave
  have j1' : runUser [.save v] s1 = Res.ok s2 := runUser_one _ j1
  refine ⟨s1, h1, ⟨s2, _, j1', j2, fun before => ?_⟩, ?_, ?_⟩
  · show (if i.destination = i.destination then _ else _) = _
    rw [if_pos rfl]
  · intro ops hops
    obtain ⟨k0, j0, m0, d0', a0⟩ := sel
    have hok : ∀ op ∈ ops ++ [UserOp.unapplyAll], op.Ok s1 := by
      intro op hop
      rcases List.mem_append.1 hop with q | q
      · exact (hops op q).1
      · rw [List.mem_singleton.1 q]; trivial
    obtain ⟨t0, kt, jt, mt, dt, gt⟩ := runUser_ok ops o a0 (fun op h => (hops op h).1)
    obtain ⟨t1, ku, ju, mu, du, gu, _⟩ := user_ok gt.opened gt.atIt .unapplyAll trivial
    have emt : mt = m := List.mem_singleton.1 (List.mem_of_getElem? gt.atIt.model)
    subst emt
    have emu : mu = mt := List.mem_singleton.1 (List.mem_of_getElem? gu.atIt.model)
    subst emu
    have hoff := unapplyAll_flags gt.atIt.selectedModel (gt.opened.live _ (List.mem_singleton.2 rfl)) gu.ok
    have run1 : runUser (ops ++ [.unapplyAll]) s1 = Res.ok t1 := runUser_join _ _ gt.ok (runUser_one _ gu.ok)
    obtain ⟨⟨l1, el1, nl1⟩, tog⟩ := still_run (ops ++ [.unapplyAll]) (by
      intro op hop
      rcases List.mem_append.1 hop with q | q
      · exact (hops op q).2
      · rw [List.mem_singleton.1 q]; rfl) run1
    have hfr := gt.frame.trans gu.frame
    have hun : ∀ d ∈ (t1.store mu).differences, (t1.heap.cell d).unsaved = false := by
      intro d hd
      have hd1 : d ∈ (s1.store mu).differences := by rw [← hfr.differences mu]; exact hd
      have := (tog d).2
      rw [hoff d hd, (q3 d hd1).1, (q3 d hd1).2] at this
      cases q : (t1.heap.cell d).unsaved with
      | false => rfl
      | true => rw [q] at this; cases this
    have hnone : t1.saveDestination v mu = Res.ok (t1, true) :=
      (C36_save (v := v) (gu.opened.live _ (List.mem_singleton.2 rfl)) (hfr.info.trans hi1)).1 hun
    obtain ⟨s3, e3, e4, e5, e6, e7⟩ : ∃ s3, t1.slotSaveDestination v = Res.ok s3 ∧ s3.log = t1.log ++ [.updateActions] ∧ s3.models = t1.models ∧ s3.store = t1.store ∧
        s3.heap = t1.heap := by
      unfold MLState.slotSaveDestination
      rw [gu.atIt.selectedModel]
      dsimp only
      rw [hnone, Res.bind_ok]
      dsimp only
      split <;> exact ⟨_, rfl, rfl, rfl, rfl, rfl⟩
    refine ⟨s3, l1 ++ [.updateActions], ?_, by rw [e4, el1, List.append_assoc], ?_, ?_⟩
    · rw [show ops ++ [UserOp.unapplyAll, .save v] = (ops ++ [.unapplyAll]) ++ [.save v] by simp]
      exact runUser_join _ _ run1 (runUser_one _ e3)
    · unfold MLState.hasUnsavedChanges
      rw [e5, gu.opened.models]
      simp only [List.any_cons, List.any_nil, Bool.or_false]
      unfold DModel.hasUnsavedChanges
      rw [List.any_eq_false, e6, e7]
      intro d hd
      rw [hun d hd]
      simp
    · intro u t q
      rcases List.mem_append.1 q with q | q
      · exact nl1 u t q
      · cases List.mem_singleton.1 q
  · obtain ⟨t, log, g1, g2, _, g4⟩ := hov ([.save v] ++ [.unapplyAll, .save v]) (by simp [UserOp.Ok])
    obtain ⟨u, g5, g6⟩ := runUser_split [.save v] _ g1
    have eu : u = s2 := Res.ok.inj (g5.symm.trans j1')
    subst eu
    have hall := all_saved (b := false) j3 (by rw [j4]; exact hlive) j5 hv1 g6
    refine ⟨t, log, g1, g2, fun before => ?_⟩
    have := (g4 before).2 ⟨e.contents i.localSource, ?_⟩
    · have := (this.2 (fun d hd => (hall d hd).2)).1 (fun d hd => (hall d hd).1)
      rw [show (split new).flatten = new from splitAux_flatten [] new] at this
      exact this
    · obtain ⟨k0, j0, m0, d0', a0⟩ := sel
      obtain ⟨u', ku, ju, mu, du, gu⟩ := runUser_ok [.save v] o a0 (by simp [UserOp.Ok])
      have eu : u' = u := Res.ok.inj (gu.ok.symm.trans g5)
      subst eu
      obtain ⟨t', n1, l', n2, _⟩ := spares_run [.unapplyAll, .save v] gu.opened ⟨_, _, _, _, gu.atIt⟩ j5 (by simp [UserOp.Ok])
      have et : t' = t := Res.ok.inj (n1.symm.trans g6)
      subst et
      rw [j2, List.append_assoc] at n2
      rw [List.append_cancel_left (g2.symm.trans n2)]
      simp

/-- The settings for the patch `p.diff` and the file `b.txt`. -/
def examplePatchInfo : Info := { mode := .BlendingFile, localSource := str "b.txt", localDestination := str "p.diff", destination := str "file:/p.diff" }

def examplePatchStart : MLState := (MLState.init none true ⟨fun _ => Diff.new 0 0 .Unchanged, 0⟩).setInfo (some examplePatchInfo)

theorem examplePatchStart_reachable : Reachable examplePatchStart :=
  ⟨none, true, ⟨fun _ => Diff.new 0 0 .Unchanged, 0⟩, [.setInfo (some examplePatchInfo)], rfl⟩

theorem examplePatch_contents : examplePatch.contents examplePatchInfo.localDestination = exampleOne.render.flatten :=
  show (if str "p.diff" = str "p.diff" then exampleOne.render.flatten else exampleOld) = _ from if_pos rfl

theorem examplePatch_original : examplePatch.contents examplePatchInfo.localSource = exampleOld := by
  show (if str "b.txt" = str "p.diff" then exampleOne.render.flatten else exampleOld) = _
  exact if_neg (by decide)

/-- The hypotheses of C80 are met: a patch for `b.txt`. -/
example : ∃ s1 m, examplePatchStart.openAndDiff examplePatch = Res.ok (s1, true) ∧ s1.models = some [m] ∧ s1.hasUnsavedChanges = true ∧
    Overwrites s1 m (str "file:/p.diff") exampleOld exampleNew := by
  obtain ⟨s1, m, h1, h2, h3, h4⟩ := C80_file (e := examplePatch) (i := examplePatchInfo) examplePatchStart_reachable rfl rfl exampleOne examplePatch_contents
    exampleOne_ok (f := exampleOne.files.head (by decide)) rfl rfl rfl exampleNew.flatten (by
      rw [exampleNew_split, examplePatch_original]
      exact example_patches)
  rw [exampleNew_split, examplePatch_original] at h4
  exact ⟨s1, m, h1, h2, h3, h4⟩

/-- The patch is lost: saving leaves the old text of `b.txt` in its place. -/
example : ∃ s1 s2 log, examplePatchStart.openAndDiff examplePatch = Res.ok (s1, true) ∧ runUser [.save {}] s1 = Res.ok s2 ∧ s2.log = s1.log ++ log ∧
    fileAfter (str "file:/p.diff") exampleOne.render.flatten log = exampleOld ∧ exampleOld ≠ exampleOne.render.flatten := by
  obtain ⟨s1, h1, ⟨s2, log, h2, h3, h4⟩, _⟩ := C80_save_defect (e := examplePatch) (i := examplePatchInfo) examplePatchStart_reachable rfl rfl exampleOne
    examplePatch_contents exampleOne_ok (f := exampleOne.files.head (by decide)) rfl rfl rfl exampleNew.flatten (by
      rw [exampleNew_split, examplePatch_original]
      exact example_patches) rfl {} rfl
  rw [examplePatch_original] at h4
  exact ⟨s1, s2, log, h1, h2, h3, h4 _, by decide⟩

/-- The names with a component to strip. -/
def inDirs (f : UFile) : UFile := { f with src := { f.src with name := str "a/" ++ f.src.name }, dst := { f.dst with name := str "b/" ++ f.dst.name } }

/-- A patch for a directory with two files. -/
def exampleTwo : UDiff where
  files := exampleDiff.files.map inDirs
  trailer := exampleDiff.trailer

theorem exampleTwo_ok : exampleTwo.Ok := by
  have ok := exampleDiff_ok
  refine ⟨?_, ?_, ?_, ok.4⟩
  · intro f hf
    obtain ⟨g, hg, rfl⟩ := List.mem_map.1 hf
    have og := ok.files g hg
    refine ⟨⟨?_, og.1.2, og.1.3⟩, ⟨?_, og.2.2, og.2.3⟩, og.3, og.4⟩
    · simp only [exampleDiff, List.mem_cons, List.not_mem_nil, or_false] at hg
      rcases hg with rfl | rfl <;> simp only [inDirs] <;> decide
    · simp only [exampleDiff, List.mem_cons, List.not_mem_nil, or_false] at hg
      rcases hg with rfl | rfl <;> simp only [inDirs] <;> decide
  · intro f fs e
    obtain ⟨g, gs, e1, rfl, rfl⟩ := List.map_eq_cons_iff.1 (show exampleDiff.files.map inDirs = f :: fs from e)
    have := ok.first g gs e1
    refine ⟨this.1, fun _ => ?_⟩
    simp only [exampleDiff, List.cons.injEq] at e1
    rw [← e1.1]
    simp [inDirs]
  · intro f fs e g hg t ts ht
    obtain ⟨f', fs', e1, rfl, rfl⟩ := List.map_eq_cons_iff.1 (show exampleDiff.files.map inDirs = f :: fs from e)
    obtain ⟨g', hg', rfl⟩ := List.mem_map.1 hg
    exact ok.3 f' fs' e1 g' hg' t ts ht

/-- A directory with the old text of `b.txt`, and the patch. -/
def exampleTwoDir : Env :=
  { emptyEnv with
    isDir := fun p => decide (p = str "old"), exists_ := fun p => decide (p = str "old/b.txt")
    contents := fun p => if p = str "p.diff" then exampleTwo.render.flatten else exampleOld }

def exampleDirInfo : Info := { mode := .BlendingDir, localSource := str "old", localDestination := str "p.diff", destination := str "file:/p.diff", depth := 1 }

theorem exampleTwo_originals : ∀ f ∈ exampleTwo.files, f.changes = true → Patches 0 (f.hunks.map UHunk.edit)
    (split (original exampleTwoDir (str "old") (lstripSeparators (unescapePath false f.src.name) 1))) (if f.src.name = str "a/b.txt" then exampleNew else [str "only\n"]) := by
  intro f hf _
  simp only [exampleTwo, exampleDiff, List.map_cons, List.map_nil, List.mem_cons, List.not_mem_nil, or_false] at hf
  rcases hf with rfl | rfl
  · have e1 : original exampleTwoDir (str "old") (lstripSeparators (unescapePath false (str "a/" ++ str "b.txt")) 1) = exampleOld := by decide
    show Patches 0 _ (split (original exampleTwoDir (str "old") (lstripSeparators (unescapePath false (str "a/" ++ str "b.txt")) 1)))
      (if str "a/" ++ str "b.txt" = str "a/b.txt" then exampleNew else [str "only\n"])
    rw [e1, if_pos (by decide)]
    exact example_patches
  · have e1 : original exampleTwoDir (str "old") (lstripSeparators (unescapePath false (str "a/" ++ str "a.txt")) 1) = [] := by decide
    show Patches 0 _ (split (original exampleTwoDir (str "old") (lstripSeparators (unescapePath false (str "a/" ++ str "a.txt")) 1)))
      (if str "a/" ++ str "a.txt" = str "a/b.txt" then exampleNew else [str "only\n"])
    rw [e1, if_neg (by decide)]
    exact .edit 0 ⟨1, [], [str "only\n"]⟩ [] [] [] [] (by decide) (.done _ _)

/-- Both files are written over the patch. -/
example : ∃ (s1 s2 : MLState) (fs : List UFile), ((MLState.init none true ⟨fun _ => Diff.new 0 0 .Unchanged, 0⟩).setInfo (some exampleDirInfo)).openAndDiff exampleTwoDir = Res.ok (s1, true) ∧
    s1.saveAll (fun _ => {}) = Res.ok (s2, true) ∧
    s2.log = s1.log ++ fs.map (fun f => .upload (str "file:/p.diff") (original exampleTwoDir (str "old") (lstripSeparators (unescapePath false f.src.name) 1))) ∧
    fs.length = 2 := by
  obtain ⟨s1, s2, fs, h1, h2, _, h3, h4, _⟩ := C80_save_all_defect (e := exampleTwoDir) (i := exampleDirInfo)
    (s := (MLState.init none true ⟨fun _ => Diff.new 0 0 .Unchanged, 0⟩).setInfo (some exampleDirInfo))
    ⟨none, true, ⟨fun _ => Diff.new 0 0 .Unchanged, 0⟩, [.setInfo (some exampleDirInfo)], rfl⟩ rfl (by decide) exampleTwo
    (show (if str "p.diff" = str "p.diff" then exampleTwo.render.flatten else exampleOld) = _ from if_pos rfl) exampleTwo_ok
    ⟨_, List.mem_cons_self .., by decide⟩ (.inl (by decide)) _ exampleTwo_originals rfl (fun _ => {}) (fun _ => rfl)
  exact ⟨s1, s2, fs, h1, h2, h4, by rw [h3.length_eq]; decide⟩

/-- The hypotheses of `C80_only_patch` are met. -/
example : ∃ s1, ((MLState.init none true ⟨fun _ => Diff.new 0 0 .Unchanged, 0⟩).setInfo (some exampleDirInfo)).openAndDiff exampleTwoDir = Res.ok (s1, true) ∧
    s1.hasUnsavedChanges = true := by
  obtain ⟨s1, h1, h2, _⟩ := C80_only_patch (e := exampleTwoDir) (i := exampleDirInfo)
    (s := (MLState.init none true ⟨fun _ => Diff.new 0 0 .Unchanged, 0⟩).setInfo (some exampleDirInfo))
    ⟨none, true, ⟨fun _ => Diff.new 0 0 .Unchanged, 0⟩, [.setInfo (some exampleDirInfo)], rfl⟩ rfl (by decide) exampleTwo
    (show (if str "p.diff" = str "p.diff" then exampleTwo.render.flatten else exampleOld) = _ from if_pos rfl) exampleTwo_ok
    ⟨_, List.mem_cons_self .., by decide⟩ (.inl (by decide)) _ exampleTwo_originals
  exact ⟨s1, h1, h2⟩

end KompareDiff2
