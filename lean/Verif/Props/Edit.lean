import Verif.Proofs.Edit
import Verif.Props.Announce
import Verif.Props.Compare
import Verif.Props.Overlay
/-
C58: editing models of an open diff.
-/
namespace KompareDiff2
open Spec

theorem savedText_eq (x : DModel) (h : Heap) : x.savedText h = fileText x h := by
  unfold fileText DModel.savedText
  congr 2
  funext i
  unfold Diff.savedLines Diff.dstText Diff.srcText
  by_cases hb : (h.cell i).applied = true
  · rw [if_neg (by simp [hb]), if_pos hb]
  · rw [if_pos (by simpa using hb), if_neg hb]

theorem edited_inv {s s1 s2 : MLState} {op : MLOp} (hs : Reachable s) (ho : OpensDiff op s s1) (h : EditedFrom s1 s2) :
    ∃ ms, Loose s1 ms ∧ Loose s2 ms ∧ Sel s2 ms ∧ Stays ms s1 s2 := by
  obtain ⟨⟨ms, h1, ⟨k, j, m, d, a⟩, _⟩, w⟩ := opens_ok hs.wf ho
  have l1 := h1.loose w
  refine ⟨ms, l1, ?_⟩
  have hd : d ∈ (s1.store m).differences := List.mem_of_getElem? a.diff
  have a1 : Sel s1 ms := ⟨k, m, d, a.model, a.selectedModel, a.selectedDifference, a.index, a.modelSelected,
    h1.liveDiffs m (List.mem_of_getElem? a.model) d hd⟩
  induction h with
  | opened => exact ⟨l1, a1, .refl ms s1⟩
  | user op _ hop hr ih =>
    obtain ⟨l2, a2, st⟩ := ih
    obtain ⟨s3, e, w3, a3⟩ := goes_user l2 a2 hop
    rw [hr] at e
    cases e
    exact ⟨w3.loose, a3, st.trans l1.hunks (w3.frame.stays w3.uploads)⟩
  | edit hash m old new line ins rem _ hm he hne ih =>
    obtain ⟨l2, a2, st⟩ := ih
    obtain ⟨l3, a3, st3⟩ := edit_loose l2 a2 (by rw [l2.models] at hm; exact hm) he hne
    exact ⟨l3, a3, st.trans l1.hunks st3⟩

/-- An opened diff. -/
theorem EditedFrom.mem {s : MLState} {ms : List Nat} {m : Nat} (l : Loose s ms) (hm : m ∈ s.models.getD []) : m ∈ ms := by
  rw [l.models] at hm; exact hm

/-- **C58.**  After opening a diff, whatever the user does and however the client edits the models, as long as no edit leaves a model without
differences: there is a selection, and every operation of the user with arguments that make sense is defined. -/
theorem C58_safe {s s1 s2 : MLState} {op : MLOp} (hs : Reachable s) (ho : OpensDiff op s s1) (h : EditedFrom s1 s2) :
    HasSelection s2 ∧ ∀ u : UserOp, u.Ok s2 → ∃ s3, u.run s2 = Res.ok s3 ∧ EditedFrom s1 s3 := by
  obtain ⟨ms, _, l2, a2, _⟩ := edited_inv hs ho h
  refine ⟨?_, fun u hu => ?_⟩
  · obtain ⟨k, m, d, a⟩ := a2
    exact a.selection l2
  · obtain ⟨s3, e, _⟩ := goes_user l2 a2 hu
    exact ⟨s3, e, .user u h hu e⟩

/-- **C58, defect: edits are never saved.**  Whatever is uploaded after the diff was opened consists, difference by difference, of the old or
the new lines that the *diff* contained; nothing of an edit. -/
theorem C58_never_saved_defect {s s1 s2 : MLState} {op : MLOp} (hs : Reachable s) (ho : OpensDiff op s s1) (h : EditedFrom s1 s2)
    {target t : Str} (hu : Event.upload target t ∈ s2.log) (hn : Event.upload target t ∉ s1.log) :
    ∃ m ∈ s1.models.getD [], Mix (s1.store m) s1.heap t := by
  obtain ⟨ms, l1, _, _, st⟩ := edited_inv hs ho h
  rcases st.uploads target t hu with h' | ⟨m, hm, hx⟩
  · exact absurd h' hn
  · exact ⟨m, by rw [l1.models]; exact hm, hx⟩

/-! ### An edit behind all differences -/

theorem describes_nil_eq {a b : Int} {S T : List Str} {ds : List Diff} (h : Describes a b S T ds) (hd : ds = []) : S = T := by
  cases h with
  | done _ _ _ => rfl
  | diff _ _ c d S' T' ds' e1 e2 e3 => cases hd

theorem takeDrop_all {α} {p : α → Bool} {l : List α} (h : ∀ x ∈ l, p x = true) : l.takeWhile p = l ∧ l.dropWhile p = [] := by
  induction l with
  | nil => exact ⟨rfl, rfl⟩
  | cons a l ih =>
    have := ih (fun x hx => h x (by simp [hx]))
    simp [List.takeWhile_cons, List.dropWhile_cons, h a (by simp), this]

/-- An edit behind all differences is defined; it removes nothing. -/
theorem edit_behind {hash : Str → Nat} {s : MLState} {ms : List Nat} {m : Nat} {old new : List Str} {line : Int} (l : Loose s ms) (hm : m ∈ ms)
    (hline : ∀ d ∈ (s.store m).differences, (s.heap.cell d).trackingEnd < line)
    (hO : ∀ x ∈ old, ShortLine x) (hN : ∀ x ∈ new, ShortLine x) (hsz : (old.length + 1) * (new.length + 1) ≤ 2 ^ 24) (hne : old ≠ new) :
    ∃ s' ins, s.edit hash m old new line = Res.ok (s', ins, []) ∧ ins ≠ [] ∧ (s'.store m).differences = (s.store m).differences ++ ins ∧
      (∀ d ∈ ins, (s'.heap.cell d).applied = true ∧ (s'.heap.cell d).unsaved = true) := by
  have hv : (s.store m).Valid s.heap := ⟨l.each m hm, l.bound m hm⟩
  let ds := (s.store m).differences.map s.heap.cell
  have hb : ∀ x ∈ ds, lcBefore line x = true := by
    intro x hx
    obtain ⟨d, hd, rfl⟩ := List.mem_map.1 hx
    have := hline d hd
    unfold lcBefore
    simp only [Bool.not_eq_true', Bool.or_eq_false_iff, decide_eq_false_iff_not, Bool.and_eq_false_iff]
    exact ⟨by omega, .inl (by omega)⟩
  obtain ⟨t1, t2⟩ := takeDrop_all hb
  obtain ⟨ins, i1, i2, i3, _, _⟩ := lcInserted_ok hash old new (lcLineNumbers ds [] line).1 (lcLineNumbers ds [] line).2 hO hN hsz
  have hr : linesChanged hash ds old new line = Res.ok ⟨ds, [], ins, []⟩ := by
    unfold linesChanged
    rw [if_neg (fun hh => hne (hh.1.trans hh.2.symm))]
    rw [t1, t2]
    simp [lcBlocks, i1]
  obtain ⟨m', h', insI, rem, pre, post, h1, h2, h3, _, _, _, _, _, _, hpre, hrem, hins, hl⟩ := DModel.linesChanged_heap hv hr
  have er : rem = [] := List.map_eq_nil_iff.1 hrem
  have ep : post = [] := by
    have := congrArg List.length h2
    have hlen := congrArg List.length hpre
    simp only [List.length_append, List.length_map, er, List.length_nil, ds] at this hlen
    exact List.length_eq_zero_iff.1 (by omega)
  subst er ep
  simp only [List.append_nil] at h2 h3
  have hst : (s.call m (m', h')).store m = m' := by show (if m = m then m' else s.store m) = _; rw [if_pos rfl]
  refine ⟨s.call m (m', h'), insI, ?_, ?_, by rw [hst, h3, h2], ?_⟩
  · unfold MLState.edit
    rw [l.model hm, Res.bind_ok, h1]
    rfl
  · intro e
    rw [e] at hins
    exact hne (describes_nil_eq i2 hins.symm)
  · intro d hd
    have := i3 (h'.cell d) (by dsimp only at hins; rw [← hins]; exact List.mem_map.2 ⟨d, hd, rfl⟩)
    exact ⟨this.applied, this.unsaved⟩

/-- **C58, defect: an edit is lost by saving.**  The client replaces lines behind all differences of a model.  The edit is accepted, the model
has unsaved changes — and a successful save uploads the same text as before the edit and clears the flags. -/
theorem C58_lost_edit_defect {hash : Str → Nat} {s s1 s2 : MLState} {op : MLOp} (hs : Reachable s) (ho : OpensDiff op s s1) (h : EditedFrom s1 s2)
    {m : Nat} (hm : m ∈ s2.models.getD []) {old new : List Str} {line : Int}
    (hline : ∀ d ∈ (s2.store m).differences, (s2.heap.cell d).trackingEnd < line)
    (hO : ∀ x ∈ old, ShortLine x) (hN : ∀ x ∈ new, ShortLine x) (hsz : (old.length + 1) * (new.length + 1) ≤ 2 ^ 24) (hne : old ≠ new) :
    ∃ s3 ins, s2.edit hash m old new line = Res.ok (s3, ins, []) ∧ EditedFrom s1 s3 ∧
      (∃ d ∈ (s3.store m).differences, (s3.heap.cell d).unsaved = true) ∧
      ∃ s4 target, s3.saveDestination {} m = Res.ok (s4, true) ∧ s4.log = s2.log ++ [.upload target (fileText (s2.store m) s2.heap)] ∧
        ∀ d ∈ (s4.store m).differences, (s4.heap.cell d).unsaved = false := by
  obtain ⟨ms, _, l2, a2, _⟩ := edited_inv hs ho h
  have hm' := EditedFrom.mem l2 hm
  obtain ⟨s3, ins, e, hi, hd, hx⟩ := edit_behind (hash := hash) l2 hm' hline hO hN hsz hne
  have hdn : (s3.store m).differences ≠ [] := by rw [hd]; simp [hi]
  obtain ⟨l3, a3, st⟩ := edit_loose l2 a2 hm' e hdn
  obtain ⟨_, hlog, _, _, _, _, pre, post, c1, c2, _, _, c3, c4, _⟩ := edit_stays l2 hm' e
  obtain ⟨d, hd0⟩ := List.exists_mem_of_ne_nil _ hi
  have hun : ∃ d ∈ (s3.store m).differences, (s3.heap.cell d).unsaved = true := ⟨d, by rw [hd]; simp [hd0], (hx d hd0).2⟩
  refine ⟨s3, ins, e, .edit hash m old new line ins [] h hm e hdn, hun, ?_⟩
  obtain ⟨i, hinf⟩ := Option.ne_none_iff_exists'.1 l3.info
  obtain ⟨hp, hsv, hcl, _⟩ := ((C36_save (v := {}) (l3.live m hm') hinf).2 hun).2 (by simp [MLState.SaveEnv.failure])
  refine ⟨_, saveTarget i (s3.store m), hsv, ?_, ?_⟩
  · show s3.log ++ _ = _
    rw [hlog, savedText_eq]
    congr 3
    unfold fileText
    rw [st.hunks m]
    congr 1
    have key : ∀ q : List Nat, (∀ i ∈ q, i < s2.heap.next) →
        q.flatMap (fun i => ((if (s3.heap.cell i).applied = true then (s3.heap.cell i).source else (s3.heap.cell i).dest).map DStr.string)) =
        q.flatMap (fun i => ((if (s2.heap.cell i).applied = true then (s2.heap.cell i).source else (s2.heap.cell i).dest).map DStr.string)) := by
      intro q
      induction q with
      | nil => intro _; rfl
      | cons x q ih =>
        intro hb
        rw [List.flatMap_cons, List.flatMap_cons, ih (fun i hi => hb i (by simp [hi]))]
        congr 1
        by_cases hpx : x ∈ post
        · rw [c3 x hpx]
        · rw [c4 x (hb x (by simp)) hpx]
    exact key _ (l2.hunks m hm')
  · intro d hd
    rw [hcl d hd]

/-! ### The selection -/

/-- **C58, the selection.**  An edit of a model does not move the selection: not of the list, not of the model, not the model's index of it.
What the index points to is another matter: the removed differences `rem` are replaced by `ins`, so a difference before the edit keeps its
index, one behind it is shifted by `|ins| - |rem|`, and a removed one stays selected although it is in no list any more. -/
theorem C58_selection {hash : Str → Nat} {s s1 s2 s3 : MLState} {op : MLOp} (hs : Reachable s) (ho : OpensDiff op s s1) (h : EditedFrom s1 s2)
    {m : Nat} (hm : m ∈ s2.models.getD []) {old new : List Str} {line : Int} {ins rem : List Nat}
    (he : s2.edit hash m old new line = Res.ok (s3, ins, rem)) :
    s3.selectedModel = s2.selectedModel ∧ s3.selectedDifference = s2.selectedDifference ∧ s3.modelIndex = s2.modelIndex ∧
    (∀ m', (s3.store m').selected = (s2.store m').selected ∧ (s3.store m').diffIndex = (s2.store m').diffIndex) ∧
    (∀ m', m' ≠ m → (s3.store m').differences = (s2.store m').differences) ∧
    ∃ pre post, (s2.store m).differences = pre ++ rem ++ post ∧ (s3.store m).differences = pre ++ ins ++ post ∧
      ∀ (j d : Nat), (s2.store m).differences[j]? = some d →
        (d ∈ pre → j < pre.length ∧ (s3.store m).differences[j]? = some d) ∧
        (d ∈ rem → d ∉ (s3.store m).differences) ∧
        (d ∈ post → pre.length + rem.length ≤ j ∧ (s3.store m).differences[j - rem.length + ins.length]? = some d) := by
  obtain ⟨ms, _, l2, a2, _⟩ := edited_inv hs ho h
  have hm' := EditedFrom.mem l2 hm
  obtain ⟨st, _, hot, p1, p2, p3, pre, post, c1, c2, c3, c4, _, _, c5, c6⟩ := edit_stays l2 hm' he
  refine ⟨p1, p2, p3, ?_, fun m' hx => by rw [hot m' hx], pre, post, by rw [c1, List.append_assoc], by rw [c2, List.append_assoc], ?_⟩
  · intro m'
    by_cases e : m' = m
    · subst e; rw [c2]; exact ⟨rfl, rfl⟩
    · rw [hot m' e]; exact ⟨rfl, rfl⟩
  · intro j d hj
    have nd := l2.each m hm'
    have hbd := l2.bound m hm'
    have hd3 : (s3.store m).differences = pre ++ (ins ++ post) := by rw [c2]
    rw [c1] at hj nd hbd
    have hfr : ∀ x ∈ ins, x ∉ pre ++ (rem ++ post) := by
      intro x hx hx'
      have := hbd x hx'
      rw [c3, List.mem_range'_1] at hx
      omega
    have n1 := List.nodup_append.1 nd
    have n2 := List.nodup_append.1 n1.2.1
    have hjlt := (List.getElem?_eq_some_iff.1 hj).1
    refine ⟨fun hp => ?_, fun hr => ?_, fun hp => ?_⟩
    · have : j < pre.length := by
        refine Classical.byContradiction fun hc => ?_
        rw [List.getElem?_append_right (by omega)] at hj
        exact n1.2.2 d hp d (List.mem_of_getElem? hj) rfl
      refine ⟨this, ?_⟩
      rw [List.getElem?_append_left this] at hj
      rw [hd3, List.getElem?_append_left this]; exact hj
    · rw [hd3]
      intro hx
      simp only [List.mem_append] at hx
      rcases hx with hx | hx | hx
      · exact n1.2.2 d hx d (by simp [hr]) rfl
      · exact hfr d hx (by simp [hr])
      · exact n2.2.2 d hr d hx rfl
    · have : pre.length + rem.length ≤ j := by
        refine Classical.byContradiction fun hc => ?_
        by_cases hjp : j < pre.length
        · rw [List.getElem?_append_left hjp] at hj
          exact n1.2.2 d (List.mem_of_getElem? hj) d (by simp [hp]) rfl
        · rw [List.getElem?_append_right (by omega), List.getElem?_append_left (by omega)] at hj
          exact n2.2.2 d (List.mem_of_getElem? hj) d hp rfl
      refine ⟨this, ?_⟩
      rw [List.getElem?_append_right (by omega), List.getElem?_append_right (by omega)] at hj
      rw [hd3, List.getElem?_append_right (by omega), List.getElem?_append_right (by omega)]
      rw [show j - rem.length + ins.length - pre.length - ins.length = j - pre.length - rem.length by omega]
      exact hj

/-- **C58, next difference.**  "Next difference" selects the difference behind the index the model remembers, if there is one, in the list
as it is now. -/
theorem C58_next {s s1 s2 : MLState} {op : MLOp} (hs : Reachable s) (ho : OpensDiff op s s1) (h : EditedFrom s1 s2)
    {m d : Nat} {j : Nat} (hsel : s2.selectedModel = some m) (hj : (s2.store m).diffIndex = j) (hd : (s2.store m).differences[j + 1]? = some d) :
    ∃ s3, s2.slotNextDifference = Res.ok s3 ∧ s3.selectedModel = some m ∧ s3.selectedDifference = some d ∧ (s3.store m).diffIndex = (j + 1 : Nat) := by
  obtain ⟨ms, _, l2, ⟨k, m0, d0, a⟩, _⟩ := edited_inv hs ho h
  have : m0 = m := by have := a.selectedModel; rw [hsel] at this; cases this; rfl
  subst this
  have hm := l2.mem a.model
  have hlt := (List.getElem?_eq_some_iff.1 hd).1
  have hn : (s2.store m0).nextDifference = Res.ok ({ s2.store m0 with diffIndex := ((j + 1 : Nat) : Int), selected := some d }, some d) := by
    unfold DModel.nextDifference
    have e : ((s2.store m0).diffIndex + 1 : Int) = ((j + 1 : Nat) : Int) := by rw [hj]; omega
    rw [e, if_pos (by omega), atR_some hd]
    rfl
  have hl : d ∉ s2.deadDiffs := l2.liveDiffs m0 hm d (List.mem_of_getElem? hd)
  have w := put_went l2 (m := m0) (i := ((j + 1 : Nat) : Int)) (p := some d) (q := some d) (fun _ => by omega) (fun x hx => by cases hx; exact hl)
  have a' : LAt (s2.put m0 ((j + 1 : Nat) : Int) (some d) (some d)) ms k m0 d := put_at a.model a.selectedModel a.index hl
  obtain ⟨s3, e3, w3, a3, st3, _⟩ := finish_loose w.loose a' (.diffSelection (some d)) (fun _ _ h => by cases h)
  refine ⟨s3, ?_, a3.selectedModel, a3.selectedDifference, by rw [st3, put_same]⟩
  unfold MLState.slotNextDifference
  rw [a.selectedModel, l2.model hm, Res.bind_ok]
  have hsw : s2.selectWith m0 DModel.nextDifference = Res.ok (s2.put m0 ((j + 1 : Nat) : Int) (some d) (some d)) := by
    unfold MLState.selectWith; rw [hn]; rfl
  rw [hsw, Res.bind_ok, if_pos (by simp [MLState.put])]
  exact e3

theorem selected_index {hash : Str → Nat} {s s1 s2 s3 : MLState} {op : MLOp} (hs : Reachable s) (ho : OpensDiff op s s1) (h : EditedFrom s1 s2)
    {m j : Nat} {old new : List Str} {line : Int} {ins rem : List Nat}
    (he : s2.edit hash m old new line = Res.ok (s3, ins, rem)) (hne : (s3.store m).differences ≠ []) (hsel : s2.selectedModel = some m)
    (hj : (s2.store m).diffIndex = j) :
    m ∈ s2.models.getD [] ∧ EditedFrom s1 s3 ∧ s3.selectedModel = some m ∧ (s3.store m).diffIndex = j := by
  obtain ⟨ms, _, l2, ⟨k, m0, d0, a⟩, _⟩ := edited_inv hs ho h
  have : m0 = m := by have := a.selectedModel; rw [hsel] at this; cases this; rfl
  subst this
  have hm : m0 ∈ s2.models.getD [] := by rw [l2.models]; exact l2.mem a.model
  obtain ⟨p1, _, _, p4, _⟩ := C58_selection hs ho h hm he
  exact ⟨hm, .edit hash m0 old new line ins rem h hm he hne, p1.trans hsel, (p4 m0).2.trans hj⟩

/-- **C58, right case.**  The selected difference keeps its place in the list (the edit is behind it): "next difference" after the edit selects
the difference that follows it now. -/
theorem C58_next_before {hash : Str → Nat} {s s1 s2 s3 : MLState} {op : MLOp} (hs : Reachable s) (ho : OpensDiff op s s1) (h : EditedFrom s1 s2)
    {m d d' j : Nat} {old new : List Str} {line : Int} {ins rem : List Nat}
    (he : s2.edit hash m old new line = Res.ok (s3, ins, rem)) (hsel : s2.selectedModel = some m) (hj : (s2.store m).diffIndex = j)
    (hd : (s3.store m).differences[j]? = some d) (hn : (s3.store m).differences[j + 1]? = some d') :
    ∃ s4, s3.slotNextDifference = Res.ok s4 ∧ s4.selectedDifference = some d' := by
  obtain ⟨_, e3, p, q⟩ := selected_index hs ho h he (by intro e; rw [e] at hd; cases hd) hsel hj
  obtain ⟨s4, e4, _, r, _⟩ := C58_next hs ho e3 p q hn
  exact ⟨s4, e4, r⟩

/-- **C58, defect: "next difference" does not move.**  The selected difference lies behind the edit, which replaced some differences by one more:
"next difference" selects the difference that was selected already. -/
theorem C58_next_stuck_defect {hash : Str → Nat} {s s1 s2 s3 : MLState} {op : MLOp} (hs : Reachable s) (ho : OpensDiff op s s1)
    (h : EditedFrom s1 s2) {m d j : Nat} {old new : List Str} {line : Int} {ins rem : List Nat}
    (he : s2.edit hash m old new line = Res.ok (s3, ins, rem)) (hsel : s2.selectedModel = some m) (hj : (s2.store m).diffIndex = j)
    (hd : (s2.store m).differences[j]? = some d) (hin : d ∈ (s3.store m).differences) (hmoved : (s3.store m).differences[j]? ≠ some d)
    (hlen : ins.length = rem.length + 1) : ∃ s4, s3.slotNextDifference = Res.ok s4 ∧ s4.selectedDifference = some d := by
  obtain ⟨hm, e3, p, q⟩ := selected_index hs ho h he (List.ne_nil_of_mem hin) hsel hj
  obtain ⟨_, _, _, _, _, pre, post, c1, c2, c3⟩ := C58_selection hs ho h hm he
  obtain ⟨r1, r2, r3⟩ := c3 j d hd
  have hmem := List.mem_of_getElem? hd
  rw [c1] at hmem
  simp only [List.mem_append] at hmem
  rcases hmem with (hx | hx) | hx
  · exact absurd (r1 hx).2 hmoved
  · exact absurd hin (r2 hx)
  · obtain ⟨x1, x2⟩ := r3 hx
    rw [show j - rem.length + ins.length = j + 1 by omega] at x2
    obtain ⟨s4, e4, _, r, _⟩ := C58_next hs ho e3 p q x2
    exact ⟨s4, e4, r⟩

/-- **C58, defect: "next difference" goes by the old index.**  The selected difference survived the edit but is at another place now: at
`j - |rem| + |ins|` instead of `j`.  "Next difference" selects number `j + 1` all the same: it stays, goes back or skips differences. -/
theorem C58_next_shifted_defect {hash : Str → Nat} {s s1 s2 s3 : MLState} {op : MLOp} (hs : Reachable s) (ho : OpensDiff op s s1)
    (h : EditedFrom s1 s2) {m d d' j : Nat} {old new : List Str} {line : Int} {ins rem : List Nat}
    (he : s2.edit hash m old new line = Res.ok (s3, ins, rem)) (hsel : s2.selectedModel = some m) (hj : (s2.store m).diffIndex = j)
    (hd : (s2.store m).differences[j]? = some d) (hin : d ∈ (s3.store m).differences) (hmoved : (s3.store m).differences[j]? ≠ some d)
    (hd' : (s3.store m).differences[j + 1]? = some d') :
    rem.length ≤ j ∧ (s3.store m).differences[j - rem.length + ins.length]? = some d ∧
      ∃ s4, s3.slotNextDifference = Res.ok s4 ∧ s4.selectedDifference = some d' := by
  obtain ⟨hm, e3, p, q⟩ := selected_index hs ho h he (List.ne_nil_of_mem hin) hsel hj
  obtain ⟨_, _, _, _, _, pre, post, c1, c2, c3⟩ := C58_selection hs ho h hm he
  obtain ⟨r1, r2, r3⟩ := c3 j d hd
  have hmem := List.mem_of_getElem? hd
  rw [c1] at hmem
  simp only [List.mem_append] at hmem
  rcases hmem with (hx | hx) | hx
  · exact absurd (r1 hx).2 hmoved
  · exact absurd hin (r2 hx)
  · obtain ⟨x1, x2⟩ := r3 hx
    obtain ⟨s4, e4, _, r, _⟩ := C58_next hs ho e3 p q hd'
    exact ⟨by omega, x2, s4, e4, r⟩

/-! ### Inserting a line before everything -/

theorem length_le_costs {ds : List Diff} (h : ∀ d ∈ ds, Created d) : ds.length ≤ (ds.map Diff.slc).sum + (ds.map Diff.dlc).sum := by
  induction ds with
  | nil => simp
  | cons d ds ih =>
    have := ih (fun x hx => h x (by simp [hx]))
    have := (h d (by simp)).nonempty
    simp only [List.length_cons, List.map_cons, List.sum_cons]
    omega

/-- A line is inserted before all differences: the edit is defined and inserts exactly one difference at the front. -/
theorem edit_ahead {hash : Str → Nat} {s : MLState} {ms : List Nat} {m : Nat} {x : Str} {line : Int} (l : Loose s ms) (hm : m ∈ ms)
    (hline : ∀ d ∈ (s.store m).differences, line < (s.heap.cell d).tracking) (hx : ShortLine x) :
    ∃ s' i, s.edit hash m [] [x] line = Res.ok (s', [i], []) ∧ (s'.store m).differences = i :: (s.store m).differences := by
  have hv : (s.store m).Valid s.heap := ⟨l.each m hm, l.bound m hm⟩
  obtain ⟨d0, ds0, hds⟩ := List.exists_cons_of_ne_nil (l.diffs m hm)
  let ds := (s.store m).differences.map s.heap.cell
  have hb : lcBefore line (s.heap.cell d0) = false := by
    have := hline d0 (by rw [hds]; simp)
    unfold lcBefore Diff.trackingEnd
    simp only [Bool.not_eq_false', Bool.or_eq_true, decide_eq_true_eq]
    left; omega
  have hi : lcInside (line + (([] : List Str).length : Int)) (s.heap.cell d0) = false := by
    have := hline d0 (by rw [hds]; simp)
    unfold lcInside
    simp only [Bool.not_eq_false', Bool.or_eq_true, decide_eq_true_eq]
    left; simpa using this
  obtain ⟨ins, i1, i2, i3, _, i5⟩ := lcInserted_ok hash [] [x] (lcLineNumbers ds ds line).1 (lcLineNumbers ds ds line).2 (by simp)
    (by simpa using hx) (by simp)
  have hlen : ins.length = 1 := by
    have h1 := length_le_costs i3
    have h2 := i5.2 1 (.insert x .nil)
    cases ins with
    | nil => exact absurd (describes_nil_eq i2 rfl) (by simp)
    | cons a t => simp only [List.length_cons] at *; omega
  have hr : linesChanged hash ds [] [x] line = Res.ok ⟨[], [], ins, ds.map (fun d => { d with tracking := d.tracking + (([x].length : Int) - ([] : List Str).length) })⟩ := by
    unfold linesChanged
    rw [if_neg (by simp)]
    have e1 : ds.takeWhile (lcBefore line) = [] := by
      show List.takeWhile _ ((s.store m).differences.map s.heap.cell) = _
      rw [hds, List.map_cons, List.takeWhile_cons_of_neg (by rw [hb]; simp)]
    have e2 : ds.dropWhile (lcBefore line) = ds := by
      show List.dropWhile _ ((s.store m).differences.map s.heap.cell) = (s.store m).differences.map s.heap.cell
      rw [hds, List.map_cons, List.dropWhile_cons_of_neg (by rw [hb]; simp)]
    have e3 : ds.takeWhile (lcInside (line + (([] : List Str).length : Int))) = [] := by
      show List.takeWhile _ ((s.store m).differences.map s.heap.cell) = _
      rw [hds, List.map_cons, List.takeWhile_cons_of_neg (by rw [hi]; simp)]
    have e4 : ds.dropWhile (lcInside (line + (([] : List Str).length : Int))) = ds := by
      show List.dropWhile _ ((s.store m).differences.map s.heap.cell) = (s.store m).differences.map s.heap.cell
      rw [hds, List.map_cons, List.dropWhile_cons_of_neg (by rw [hi]; simp)]
    simp only [e1, e2, e3, e4, lcBlocks, List.filter_nil, Res.bind_ok, i1]
  obtain ⟨m', h', insI, rem, pre, post, h1, h2, h3, _, _, _, _, _, _, hpre, hrem, hins, hl⟩ := DModel.linesChanged_heap hv hr
  have er : rem = [] := List.map_eq_nil_iff.1 hrem
  have ep : pre = [] := List.map_eq_nil_iff.1 hpre
  subst er ep
  simp only [List.nil_append] at h2 h3
  have hst : (s.call m (m', h')).store m = m' := by show (if m = m then m' else s.store m) = _; rw [if_pos rfl]
  have hl1 : insI.length = 1 := by
    have := congrArg List.length hins
    simpa [hlen] using this
  obtain ⟨i, rfl⟩ := List.length_eq_one_iff.1 hl1
  refine ⟨s.call m (m', h'), i, ?_, by rw [hst, h3, h2]; rfl⟩
  unfold MLState.edit
  rw [l.model hm, Res.bind_ok, h1]
  rfl

/-- **C58, the same concretely.**  A diff was just opened; the client inserts a line before all differences of the selected model.  "Next
difference" then selects the difference that was selected already, instead of the second one. -/
theorem C58_insert_line_defect {hash : Str → Nat} {s s1 : MLState} {op : MLOp} (hs : Reachable s) (ho : OpensDiff op s s1)
    {m j : Nat} (hsel : s1.selectedModel = some m) (hj : (s1.store m).diffIndex = j) {x : Str} {line : Int}
    (hline : ∀ d ∈ (s1.store m).differences, line < (s1.heap.cell d).tracking) (hx : ShortLine x) :
    ∃ s2 i, s1.edit hash m [] [x] line = Res.ok (s2, [i], []) ∧ EditedFrom s1 s2 ∧
      ∃ s3, s2.slotNextDifference = Res.ok s3 ∧ s3.selectedDifference = s1.selectedDifference := by
  obtain ⟨_, _, ms, k, j', m', d, o, a⟩ := (ho.inUse hs).facts
  have : m' = m := by have := a.selectedModel; rw [hsel] at this; cases this; rfl
  subst this
  have : j' = j := by have := a.modelIndex; rw [hj] at this; omega
  subst this
  have l1 : Loose s1 ms := o.loose (ho.inUse hs).facts.1
  obtain ⟨s2, i, e, hd2⟩ := edit_ahead (hash := hash) l1 (l1.mem a.model) hline hx
  have hne : (s2.store m').differences ≠ [] := by rw [hd2]; simp
  have hd3 : (s2.store m').differences[j' + 1]? = some d := by rw [hd2, List.getElem?_cons_succ]; exact a.diff
  obtain ⟨hm, e3, p, q⟩ := selected_index hs ho .opened e hne hsel hj
  obtain ⟨s3, e4, _, r, _⟩ := C58_next hs ho e3 p q hd3
  exact ⟨s2, i, e, e3, s3, e4, r.trans a.selectedDifference.symm⟩

/-! ### Emptied models -/

theorem selectFirst_empty {s : MLState} {m : Nat} (hsm : s.selectedModel = some m) (hl : m ∉ s.dead) (h : (s.store m).differences = []) :
    s.selectFirst = Res.ub := by
  unfold MLState.selectFirst MLState.model
  rw [hsm]
  dsimp only
  rw [if_neg hl, Res.bind_ok]
  unfold MLState.selectWith DModel.firstDifference
  rw [h]
  rfl

theorem selectLast_empty {s : MLState} {m : Nat} (hsm : s.selectedModel = some m) (hl : m ∉ s.dead) (h : (s.store m).differences = []) :
    s.selectLast = Res.ub := by
  unfold MLState.selectLast MLState.model
  rw [hsm]
  dsimp only
  rw [if_neg hl, Res.bind_ok]
  unfold MLState.selectWith DModel.lastDifference
  rw [h]
  rfl

/-- **C58, emptying a model.**  The only difference of a model is not applied; the client reports that a line in it was replaced by an equal one.
The difference is removed and none is inserted: the model is left without differences. -/
theorem C58_emptied {hash : Str → Nat} {s s1 s2 : MLState} {op : MLOp} (hs : Reachable s) (ho : OpensDiff op s s1) (h : EditedFrom s1 s2)
    {m d : Nat} (hm : m ∈ s2.models.getD []) (hd : (s2.store m).differences = [d]) (ha : (s2.heap.cell d).applied = false) {x : Str} (hx : ShortLine x) :
    ∃ s3, s2.edit hash m [x] [x] (s2.heap.cell d).tracking = Res.ok (s3, [], [d]) ∧ (s3.store m).differences = [] := by
  obtain ⟨ms, _, l2, a2, _⟩ := edited_inv hs ho h
  have hm' := EditedFrom.mem l2 hm
  have hv : (s2.store m).Valid s2.heap := ⟨l2.each m hm', l2.bound m hm'⟩
  generalize hc : s2.heap.cell d = c at ha
  have hb : lcBefore c.tracking c = false := by
    unfold lcBefore Diff.trackingEnd
    simp only [Bool.not_eq_false', Bool.or_eq_true, decide_eq_true_eq, Bool.and_eq_true]
    by_cases h0 : 0 < c.dlc
    · left; omega
    · right; exact ⟨by omega, .inr trivial⟩
  have hi : lcInside (c.tracking + (([x] : List Str).length : Int)) c = true := by
    unfold lcInside
    simp only [Bool.not_eq_true', Bool.or_eq_false_iff, decide_eq_false_iff_not, List.length_singleton, Bool.and_eq_false_iff]
    exact ⟨by omega, .inr (by omega)⟩
  obtain ⟨ins, i1, i2, i3, _, i5⟩ := lcInserted_ok hash [x] [x] (lcLineNumbers [c] [c] c.tracking).1 (lcLineNumbers [c] [c] c.tracking).2
    (by simpa using hx) (by simpa using hx) (by simp)
  have hnil : ins = [] := by
    have h1 := length_le_costs i3
    have h2 := i5.2 0 (.keep x .nil)
    exact List.length_eq_zero_iff.1 (by omega)
  subst hnil
  have hr : linesChanged hash ((s2.store m).differences.map s2.heap.cell) [x] [x] c.tracking = Res.ok ⟨[], [c], [], []⟩ := by
    rw [hd]
    unfold linesChanged
    rw [if_neg (by simp)]
    simp only [List.map_cons, List.map_nil, hc]
    rw [List.takeWhile_cons_of_neg (by rw [hb]; simp), List.dropWhile_cons_of_neg (by rw [hb]; simp), List.takeWhile_cons_of_pos hi,
      List.dropWhile_cons_of_pos hi]
    simp only [List.takeWhile_nil, List.dropWhile_nil, List.filter_cons, ha, Bool.false_eq_true, if_false, List.filter_nil, lcBlocks, Res.bind_ok, i1,
      List.map_nil]
  obtain ⟨m', h', insI, rem, pre, post, h1, h2, h3, _, _, _, _, _, _, hpre, hrem, hins, hl⟩ := DModel.linesChanged_heap hv hr
  have ep : pre = [] := List.map_eq_nil_iff.1 hpre
  have ei : insI = [] := List.map_eq_nil_iff.1 hins
  subst ep ei
  have hrl : rem.length = 1 := by have := congrArg List.length hrem; simpa using this
  obtain ⟨r, rfl⟩ := List.length_eq_one_iff.1 hrl
  rw [hd] at h2
  simp only [List.nil_append, List.cons_append, List.cons.injEq] at h2
  obtain ⟨rfl, rfl⟩ := h2
  have hst : (s2.call m (m', h')).store m = m' := by show (if m = m then m' else s2.store m) = _; rw [if_pos rfl]
  refine ⟨s2.call m (m', h'), ?_, by rw [hst, h3]; rfl⟩
  unfold MLState.edit
  rw [l2.model hm', Res.bind_ok, h1]
  rfl

/-- **C58, undefined behaviour: an emptied model.**  After an edit that leaves a model without differences: "next file" and "previous file" into
this model are undefined; if it is the only model, so are these two and "next difference", and "previous difference". -/
theorem C58_emptied_ub {hash : Str → Nat} {s s1 s2 s3 : MLState} {op : MLOp} (hs : Reachable s) (ho : OpensDiff op s s1) (h : EditedFrom s1 s2)
    {m : Nat} {old new : List Str} {line : Int} {ins rem : List Nat} {ms : List Nat} {k : Nat} (hms : s2.models = some ms)
    (he : s2.edit hash m old new line = Res.ok (s3, ins, rem)) (hempty : (s3.store m).differences = []) (hk : s2.modelIndex = k) :
    (ms[k + 1]? = some m → s3.slotNextModel = Res.ub) ∧
    (1 ≤ k → ms[k - 1]? = some m → s3.slotPreviousModel = Res.ub) ∧
    (ms = [m] → s3.slotNextModel = Res.ub ∧ s3.slotPreviousModel = Res.ub ∧ s3.slotNextDifference = Res.ub ∧ s3.slotPreviousDifference = Res.ub) := by
  obtain ⟨ms', _, l2, ⟨k', m0, d0, a⟩, _⟩ := edited_inv hs ho h
  have : ms' = ms := by have := l2.models; rw [hms] at this; cases this; rfl
  subst this
  have : k' = k := by have := a.index; rw [hk] at this; omega
  subst this
  have key : m ∈ ms' → s3.models = some ms' ∧ m ∉ s3.dead ∧ s3.modelIndex = k' ∧ s3.selectedModel = some m0 ∧ (s3.store m).diffIndex = (s2.store m).diffIndex := by
    intro hm
    obtain ⟨st, _, hot, p1, p2, p3, pre, post, c1, c2, _⟩ := edit_stays l2 hm he
    exact ⟨st.models.trans hms, by rw [st.dead]; exact l2.live m hm, p3.trans hk, p1.trans a.selectedModel, by rw [c2]⟩
  have ub : ∀ (t : MLState), t.store = s3.store → t.dead = s3.dead → t.selectedModel = some m → m ∈ ms' → t.selectFirst = Res.ub ∧ t.selectLast = Res.ub := by
    intro t h1 h2 h3 hm
    obtain ⟨_, hd, _⟩ := key hm
    exact ⟨selectFirst_empty h3 (by rw [h2]; exact hd) (by rw [h1]; exact hempty), selectLast_empty h3 (by rw [h2]; exact hd) (by rw [h1]; exact hempty)⟩
  have klt := (List.getElem?_eq_some_iff.1 a.model).1
  refine ⟨fun hn => ?_, fun h1 hn => ?_, fun e => ?_⟩
  · have hm := List.mem_of_getElem? hn
    obtain ⟨q1, q2, q3, q4, _⟩ := key hm
    have hlt := (List.getElem?_eq_some_iff.1 hn).1
    unfold MLState.slotNextModel MLState.nextModel_ MLState.list
    rw [q1, q3]
    have e : ((k' : Int) + 1) = ((k' + 1 : Nat) : Int) := by omega
    rw [e]
    dsimp only
    rw [Res.bind_ok, if_pos (by omega), atR_some hn, Res.bind_ok, Res.bind_ok, if_pos (by simp), (ub _ (by rfl) (by rfl) (by rfl) hm).1]
    rfl
  · have hm := List.mem_of_getElem? hn
    obtain ⟨q1, q2, q3, q4, _⟩ := key hm
    have hlt := (List.getElem?_eq_some_iff.1 hn).1
    unfold MLState.slotPreviousModel MLState.prevModel MLState.list
    rw [q1, q3]
    have e : ((k' : Int) - 1) = ((k' - 1 : Nat) : Int) := by omega
    rw [e, if_pos (by omega)]
    dsimp only
    rw [Res.bind_ok, if_pos (by omega), atR_some hn, Res.bind_ok, Res.bind_ok, if_pos (by simp), (ub _ (by rfl) (by rfl) (by rfl) hm).1]
    rfl
  · subst e
    have hm : m ∈ [m] := by simp
    obtain ⟨q1, q2, q3, q4, q5⟩ := key hm
    have hk0 : k' = 0 := by simpa using klt
    subst hk0
    have hm0 : m0 = m := by have := a.model; simp at this; exact this.symm
    subst hm0
    have hmod : s3.model (some m0) = Res.ok m0 := by unfold MLState.model; simp [q2]
    have hfirst : ∀ t : MLState, t.models = some [m0] → t.firstModel = Res.ok { t with modelIndex := 0, selectedModel := some m0 } := by
      intro t ht; unfold MLState.firstModel MLState.list; rw [ht]; rfl
    have hlast : ∀ t : MLState, t.models = some [m0] → t.lastModel = Res.ok { t with modelIndex := 0, selectedModel := some m0 } := by
      intro t ht; unfold MLState.lastModel MLState.list; rw [ht]; rfl
    have hnext : ∀ t : MLState, t.models = some [m0] → t.modelIndex = ((0 : Nat) : Int) → t.nextModel_ = Res.ok { t with modelIndex := 0, selectedModel := none } := by
      intro t ht hi; unfold MLState.nextModel_ MLState.list; rw [ht, hi]; rfl
    have hprev : ∀ t : MLState, t.modelIndex = ((0 : Nat) : Int) → t.prevModel = Res.ok { t with modelIndex := 0, selectedModel := none } := by
      intro t hi; unfold MLState.prevModel; rw [hi]; rfl
    have h0 : 0 ≤ (s3.store m0).diffIndex := by rw [q5]; exact l2.index m0 hm (by rw [a.modelSelected]; simp)
    refine ⟨?_, ?_, ?_, ?_⟩
    · unfold MLState.slotNextModel
      rw [hnext _ (by exact q1) (by exact q3), Res.bind_ok, if_neg (by simp), hlast _ (by exact q1), Res.bind_ok, (ub _ (by rfl) (by rfl) (by rfl) hm).1]; rfl
    · unfold MLState.slotPreviousModel
      rw [hprev _ (by exact q3), Res.bind_ok, if_neg (by simp), hfirst _ (by exact q1), Res.bind_ok, (ub _ (by rfl) (by rfl) (by rfl) hm).1]; rfl
    · have hsw : s3.selectWith m0 DModel.nextDifference = Res.ok (s3.put m0 0 none none) := by
        unfold MLState.selectWith DModel.nextDifference
        rw [if_neg (by rw [hempty]; simp; omega)]; rfl
      unfold MLState.slotNextDifference
      rw [q4, hmod, Res.bind_ok, hsw, Res.bind_ok, if_neg (by simp [MLState.put]), hnext _ (by exact q1) (by exact q3), Res.bind_ok, if_neg (by simp), hlast _ (by exact q1), Res.bind_ok]
      rw [selectLast_empty (m := m0) (by rfl) (by exact q2) (by
        show ((s3.put m0 0 none none).store m0).differences = []
        rw [put_same]; exact hempty)]
      rfl
    · have hsw : s3.selectWith m0 DModel.prevDifference = Res.ok (s3.put m0 0 none none) := by
        unfold MLState.selectWith DModel.prevDifference
        rw [if_neg (by rw [hempty]; simp; omega)]; rfl
      unfold MLState.slotPreviousDifference
      rw [q4, hmod, Res.bind_ok, hsw, Res.bind_ok, if_neg (by simp [MLState.put]), hprev _ (by exact q3), Res.bind_ok, if_neg (by simp), hfirst _ (by exact q1), Res.bind_ok]
      rw [selectFirst_empty (m := m0) (by rfl) (by exact q2) (by
        show ((s3.put m0 0 none none).store m0).differences = []
        rw [put_same]; exact hempty)]
      rfl

/-! ### Selecting again -/

theorem reselect {s s1 s2 : MLState} {op : MLOp} (hs : Reachable s) (ho : OpensDiff op s s1) (h : EditedFrom s1 s2)
    {m d : Nat} (hsel : s2.selectedModel = some m) (hd : d ∉ s2.deadDiffs) (hok : ((s2.store m).setSelectedDifference (some d)).2 = true) :
    ∃ s3, s2.slotDiffSelectionChanged (some d) = Res.ok s3 ∧ s3.selectedModel = some m ∧ s3.selectedDifference = some d ∧
      s3.store m = ((s2.store m).setSelectedDifference (some d)).1 := by
  obtain ⟨ms, _, l2, ⟨k, m0, d0, a⟩, _⟩ := edited_inv hs ho h
  have : m0 = m := by have := a.selectedModel; rw [hsel] at this; cases this; rfl
  subst this
  have hm := l2.mem a.model
  obtain ⟨i, p, h0, h1, h2, h3⟩ := select_put (s2.store m0) (l2.index m0 hm) d
  have hps := h3 hok
  subst hps
  have w := put_went l2 (m := m0) (i := i) (p := some d) (q := some d) h0 (fun d' hd' => by cases hd'; exact hd)
  obtain ⟨s3, e3, _, a3, st3, _⟩ := finish_loose w.loose (put_at (s := s2) (i := i) a.model a.selectedModel a.index hd) (.diffSelection (some d))
    (fun _ _ h => by cases h)
  refine ⟨s3, ?_, a3.selectedModel, a3.selectedDifference, by rw [st3, put_same, h2]⟩
  unfold MLState.slotDiffSelectionChanged
  dsimp only
  rw [show MLState.model { s2 with selectedDifference := some d } s2.selectedModel = Res.ok m0 from (by rw [a.selectedModel]; exact l2.model hm), Res.bind_ok]
  have e : MLState.setModel { s2 with selectedDifference := some d } m0 ((s2.store m0).setSelectedDifference (some d)).1 = s2.put m0 i (some d) (some d) := by
    rw [h2]; rfl
  rw [e, if_neg (by rw [hok]; simp), Res.bind_ok]
  exact e3

/-- **C58, selecting another difference.**  If a difference of the selected model that is not the selected one is selected, the index is right
again, whatever was edited before. -/
theorem C58_reselect {s s1 s2 : MLState} {op : MLOp} (hs : Reachable s) (ho : OpensDiff op s s1) (h : EditedFrom s1 s2)
    {m d j : Nat} (hsel : s2.selectedModel = some m) (hd : (s2.store m).differences[j]? = some d) (hnot : s2.selectedDifference ≠ some d) :
    ∃ s3, s2.slotDiffSelectionChanged (some d) = Res.ok s3 ∧ s3.selectedModel = some m ∧ s3.selectedDifference = some d ∧
      (s3.store m).diffIndex = j ∧ (s3.store m).differences = (s2.store m).differences := by
  obtain ⟨ms, _, l2, ⟨k, m0, d0, a⟩, _⟩ := edited_inv hs ho h
  have : m0 = m := by have := a.selectedModel; rw [hsel] at this; cases this; rfl
  subst this
  have hm := l2.mem a.model
  have hdl := l2.liveDiffs m0 hm d (List.mem_of_getElem? hd)
  have hne : some d ≠ (s2.store m0).selected := by rw [a.modelSelected, ← a.selectedDifference]; exact hnot.symm
  have hidx : (s2.store m0).findDifference d = (j : Int) := indexOfI_get (l2.each m0 hm) hd
  have hset : (s2.store m0).setSelectedDifference (some d) = ({ s2.store m0 with diffIndex := (j : Int), selected := some d }, true) := by
    unfold DModel.setSelectedDifference
    rw [if_pos hne]
    dsimp only
    rw [hidx, if_neg (by omega)]
  obtain ⟨s3, e, p1, p2, p3⟩ := reselect hs ho h hsel hdl (by rw [hset])
  exact ⟨s3, e, p1, p2, by rw [p3, hset], by rw [p3, hset]⟩

/-- **C58, defect: selecting the selected difference again does not help.**  The index the model remembers stays what it was. -/
theorem C58_reselect_defect {s s1 s2 : MLState} {op : MLOp} (hs : Reachable s) (ho : OpensDiff op s s1) (h : EditedFrom s1 s2)
    {m d : Nat} (hsel : s2.selectedModel = some m) (hd : s2.selectedDifference = some d) :
    ∃ s3, s2.slotDiffSelectionChanged (some d) = Res.ok s3 ∧ s3.selectedModel = some m ∧ s3.selectedDifference = some d ∧ s3.store m = s2.store m := by
  obtain ⟨ms, _, l2, ⟨k, m0, d0, a⟩, _⟩ := edited_inv hs ho h
  have : m0 = m := by have := a.selectedModel; rw [hsel] at this; cases this; rfl
  subst this
  have : d0 = d := by have := a.selectedDifference; rw [hd] at this; cases this; rfl
  subst this
  have hset : (s2.store m0).setSelectedDifference (some d0) = (s2.store m0, true) := by
    unfold DModel.setSelectedDifference
    rw [if_neg (by rw [a.modelSelected]; simp)]
  obtain ⟨s3, e, p1, p2, p3⟩ := reselect hs ho h hsel a.live (by rw [hset])
  exact ⟨s3, e, p1, p2, by rw [p3, hset]⟩

/-! ### The hypotheses are met -/

theorem below_all (l : List Nat) (f : Nat → Int) : ∃ line, ∀ d ∈ l, line < f d := by
  induction l with
  | nil => exact ⟨0, by simp⟩
  | cons a l ih =>
    obtain ⟨x, hx⟩ := ih
    refine ⟨min x (f a) - 1, fun d hd => ?_⟩
    simp only [List.mem_cons] at hd
    rcases hd with rfl | hd
    · omega
    · have := hx d hd; omega

theorem above_all (l : List Nat) (f : Nat → Int) : ∃ line, ∀ d ∈ l, f d < line := by
  obtain ⟨x, hx⟩ := below_all l (fun d => - f d)
  exact ⟨-x, fun d hd => by have := hx d hd; omega⟩

theorem shortA : ShortLine (str "A") := by unfold ShortLine; decide

/-- After opening, a line is inserted before all differences of the selected model, the user presses "next difference" (which does not move),
selects another difference, a line is changed behind all differences and the user saves (the changed line is not saved). -/
example : ∃ (s1 s2 s3 : MLState) (m i : Nat) (line : Int), OpensDiff (.parseAndOpenDiff emptyEnv exampleDiff.render.flatten) exampleStart s1 ∧
    s1.edit (fun _ => 0) m [] [str "A"] line = Res.ok (s2, [i], []) ∧ EditedFrom s1 s2 ∧ s2.slotNextDifference = Res.ok s3 ∧
    s3.selectedDifference = s1.selectedDifference ∧ EditedFrom s1 s3 ∧ m ∈ s3.models.getD [] ∧
    (∃ d j : Nat, (s3.store m).differences[j]? = some d ∧ s3.selectedDifference ≠ some d) ∧
    ∃ line', ∀ d ∈ (s3.store m).differences, (s3.heap.cell d).trackingEnd < line' := by
  obtain ⟨s1, ho⟩ := example_opens
  obtain ⟨_, _, ms, k, j, m, d, o, a⟩ := (ho.inUse exampleStart_reachable).facts
  obtain ⟨line, hline⟩ := below_all (s1.store m).differences (fun d => (s1.heap.cell d).tracking)
  obtain ⟨s2, i, e, e2, s3, e3, h3⟩ := C58_insert_line_defect (hash := fun _ => 0) exampleStart_reachable ho a.selectedModel a.modelIndex hline shortA
  obtain ⟨s3', e3', h3'⟩ := (C58_safe exampleStart_reachable ho e2).2 .nextDifference trivial
  have : s3' = s3 := by have : s2.slotNextDifference = Res.ok s3' := e3'; rw [e3] at this; cases this; rfl
  subst this
  obtain ⟨ms', l1, l3, a3, st3⟩ := edited_inv exampleStart_reachable ho h3'
  have hmem : m ∈ s1.models.getD [] := by rw [o.models]; exact List.mem_of_getElem? a.model
  obtain ⟨line', hline'⟩ := above_all (s3'.store m).differences (fun d => (s3'.heap.cell d).trackingEnd)
  have hm : m ∈ s3'.models.getD [] := by rw [st3.models]; exact hmem
  refine ⟨s1, s2, s3', m, i, line, ho, e, e2, e3, h3, h3', hm, ?_, line', hline'⟩
  have l1' : Loose s1 ms := o.loose (ho.inUse exampleStart_reachable).facts.1
  obtain ⟨s2', i', f1, f2⟩ := edit_ahead (hash := fun _ => 0) (x := str "A") l1' (List.mem_of_getElem? a.model) hline shortA
  rw [e] at f1
  cases f1
  have hfr := (edit_stays l1' (List.mem_of_getElem? a.model) e)
  obtain ⟨_, _, _, _, _, _, _, _, _, _, hr, _⟩ := hfr
  have hib : i = s1.heap.next := by
    have := congrArg List.head? hr
    simp [List.range'] at this
    exact this
  have hd3 : (s3'.store m).differences = (s2.store m).differences := by
    obtain ⟨msx, _, l2x, a2x, _⟩ := edited_inv exampleStart_reachable ho e2
    obtain ⟨y, hy, w, _⟩ := goes_user l2x a2x (op := .nextDifference) trivial
    have : y = s3' := by rw [e3'] at hy; cases hy; rfl
    subst this
    exact w.frame.differences m
  refine ⟨i, 0, by rw [hd3, f2]; rfl, ?_⟩
  rw [h3, a.selectedDifference]
  intro hx
  cases hx
  have := l1'.bound m (List.mem_of_getElem? a.model) d (List.mem_of_getElem? a.diff)
  omega

/-- A diff with a single model that has a single difference, which is not applied. -/
theorem one_difference_open : ∃ (s1 : MLState) (m d : Nat), OpensDiff (.parseAndOpenDiff emptyEnv exampleOne.render.flatten) exampleStart s1 ∧
    s1.models = some [m] ∧ (s1.store m).differences = [d] ∧ (s1.heap.cell d).applied = false := by
  obtain ⟨s1, h1⟩ := opens_unified exampleStart_reachable (by simp [exampleStart, MLState.setInfo]) emptyEnv exampleOne exampleOne_ok (by decide) rfl
  have h1' : exampleStart.parseAndOpenDiff emptyEnv exampleOne.render.flatten = Res.ok (s1, true) := h1
  have w0 : WF (exampleStart.clear.emit (.status .Parsing)) := exampleStart_reachable.wf.keep ((keep_clear _).trans (keep_emit _ _))
  unfold MLState.parseAndOpenDiff at h1'
  obtain ⟨⟨t, ok⟩, a, b⟩ := Res.bind_eq_ok.1 h1'
  obtain ⟨wt, _, _, r, hr, hh, hf, ht⟩ := parseDiffOutput_spec w0 a
  dsimp only at b
  split at b
  · cases b
  · rename_i hok
    obtain ⟨u, q, b⟩ := Res.bind_eq_ok.1 b
    have b := congrArg Prod.fst (Res.ok.inj b)
    dsimp only at b
    obtain ⟨ms, m, d, hms, ho, ha, hst⟩ := ht (by simpa using hok)
    obtain ⟨r', hr', _, hv⟩ := C26_unified exampleOne exampleOne_ok (by decide) emptyEnv.win emptyEnv.cmp
      (exampleStart.clear.emit (.status .Parsing)).heap
    have er : r' = r := Res.ok.inj (hr'.symm.trans hr)
    subst er
    rw [hms] at hv
    obtain ⟨ac, hac⟩ := updateActions_point (ho.loose wt) (List.mem_of_getElem? ha.model) ha.selectedModel ha.selectedDifference
      (ho.liveDiffs m (List.mem_of_getElem? ha.model) d (List.mem_of_getElem? ha.diff))
    rw [hac] at q
    cases q
    obtain ⟨t1, t2, t3, _, t5, t6, _, t8⟩ := opens_raw (e := emptyEnv) w0 (by simp [exampleStart, MLState.setInfo, MLState.clear, MLState.emit]) hr hms
    rw [a] at t2
    cases t2
    have hl := hv.2.length_eq
    rw [List.length_map, List.length_map] at hl
    have hl1 : (exampleOne.files.filter UFile.changes).length = 1 := by decide
    obtain ⟨x, rfl⟩ := List.length_eq_one_iff.1 (hl.trans hl1)
    have hx := hst 0 x rfl
    have hdl : x.differences.length = 1 := by
      have hp := hv.2
      have e : (exampleOne.files.filter UFile.changes).map (UFile.view (unescapePath emptyEnv.win)) =
        [UFile.view (unescapePath emptyEnv.win) (exampleOne.files.head (by decide))] := by rfl
      rw [e, List.map_cons, List.map_nil, List.singleton_perm_singleton] at hp
      have := congrArg (fun v => v.differences.length) hp
      unfold DModel.view at this
      dsimp only at this
      rw [List.length_map] at this
      rw [this]
      decide
    obtain ⟨d', hd'⟩ := List.length_eq_one_iff.1 hdl
    have hap := (t8 0 x rfl).2.2.1
    have hs1m : s1.models = t.models := by rw [← b]; rfl
    have hs1s : s1.store = t.store := by rw [← b]; rfl
    have hs1h : s1.heap = t.heap := by rw [← b]; rfl
    refine ⟨s1, (exampleStart.clear.emit (.status .Parsing)).nextModel, d', h1, ?_, ?_, ?_⟩
    · rw [hs1m, ho.models]; rfl
    · rw [hs1s]; exact hx.2.1.trans hd'
    · rw [hs1h]; exact hap d' (by rw [show (t.store _).differences = _ from hx.2.1, hd']; simp)

/-- The edit of `C58_emptied` is possible right after opening a diff, and then the user's navigation is undefined. -/
example : ∃ (s1 s3 : MLState) (m d : Nat) (line : Int), OpensDiff (.parseAndOpenDiff emptyEnv exampleOne.render.flatten) exampleStart s1 ∧
    s1.edit (fun _ => 0) m [str "A"] [str "A"] line = Res.ok (s3, [], [d]) ∧ (s3.store m).differences = [] ∧ s3.slotNextDifference = Res.ub := by
  obtain ⟨s1, m, d, ho, hm, hd, ha⟩ := one_difference_open
  obtain ⟨s3, e, h3⟩ := C58_emptied (hash := fun _ => 0) exampleStart_reachable ho .opened (m := m) (by rw [hm]; simp) hd ha shortA
  obtain ⟨_, _, ms, k, j, m', d', o, a⟩ := (ho.inUse exampleStart_reachable).facts
  exact ⟨s1, s3, m, d, _, ho, e, h3, ((C58_emptied_ub exampleStart_reachable ho .opened hm e h3 a.index).2.2 rfl).2.2.1⟩

/-- The hypotheses of `C58_next_before` are met: a line is replaced behind all differences. -/
example : ∃ (s1 s2 : MLState) (m d d' j : Nat) (line : Int) (ins : List Nat), OpensDiff (.parseAndOpenDiff emptyEnv exampleDiff.render.flatten) exampleStart s1 ∧
    s1.edit (fun _ => 0) m [str "A"] [] line = Res.ok (s2, ins, []) ∧ s1.selectedModel = some m ∧ (s1.store m).diffIndex = j ∧
    (s2.store m).differences[j]? = some d ∧ (s2.store m).differences.getLast? = some d' ∧ d ≠ d' := by
  obtain ⟨s1, ho⟩ := example_opens
  obtain ⟨w, _, ms, k, j, m, d, o, a⟩ := (ho.inUse exampleStart_reachable).facts
  have l1 : Loose s1 ms := o.loose w
  have hm := l1.mem a.model
  obtain ⟨line, hline⟩ := above_all (s1.store m).differences (fun d => (s1.heap.cell d).trackingEnd)
  obtain ⟨s2, ins, e, h1, h2, h3⟩ := edit_behind (hash := fun _ => 0) (old := [str "A"]) (new := []) l1 hm hline (by simp [shortA]) (by simp) (by decide) (by decide)
  obtain ⟨_, _, _, _, _, _, _, _, _, _, hr, _⟩ := edit_stays l1 hm e
  obtain ⟨d', hd'⟩ : ∃ d', ins.getLast? = some d' := ⟨_, List.getLast?_eq_some_getLast h1⟩
  have hlt := (List.getElem?_eq_some_iff.1 a.diff).1
  refine ⟨s1, s2, m, d, d', j, line, ins, ho, e, a.selectedModel, a.modelIndex, ?_, ?_, ?_⟩
  · rw [h2, List.getElem?_append_left hlt]; exact a.diff
  · rw [h2, List.getLast?_append, hd']; rfl
  · rintro rfl
    have hb := l1.bound m hm d (List.mem_of_getElem? a.diff)
    have hx := List.mem_of_getLast? hd'
    rw [hr, List.mem_range'_1] at hx
    omega

/-- The hypotheses of `C58_next_stuck_defect` and `C58_next_shifted_defect` are met: a line is inserted before all differences. -/
example : ∃ (s1 s2 : MLState) (m d j : Nat) (line : Int) (ins : List Nat), OpensDiff (.parseAndOpenDiff emptyEnv exampleDiff.render.flatten) exampleStart s1 ∧
    s1.edit (fun _ => 0) m [] [str "A"] line = Res.ok (s2, ins, []) ∧ s1.selectedModel = some m ∧ (s1.store m).diffIndex = j ∧
    (s1.store m).differences[j]? = some d ∧ d ∈ (s2.store m).differences ∧ (s2.store m).differences[j]? ≠ some d ∧
    (s2.store m).differences[j + 1]? = some d ∧ ins.length = 1 := by
  obtain ⟨s1, ho⟩ := example_opens
  obtain ⟨w, _, ms, k, j, m, d, o, a⟩ := (ho.inUse exampleStart_reachable).facts
  have l1 : Loose s1 ms := o.loose w
  have hm := l1.mem a.model
  obtain ⟨line, hline⟩ := below_all (s1.store m).differences (fun d => (s1.heap.cell d).tracking)
  obtain ⟨s2, i, e, h2⟩ := edit_ahead (hash := fun _ => 0) (x := str "A") l1 hm hline shortA
  obtain ⟨_, _, _, _, _, _, _, _, _, _, hr, _, _, _, hnd, _⟩ := edit_stays l1 hm e
  have hlt := (List.getElem?_eq_some_iff.1 a.diff).1
  have h3 : (s2.store m).differences[j + 1]? = some d := by rw [h2, List.getElem?_cons_succ]; exact a.diff
  refine ⟨s1, s2, m, d, j, line, [i], ho, e, a.selectedModel, a.modelIndex, a.diff, List.mem_of_getElem? h3, ?_, h3, rfl⟩
  intro hc
  have := nodup_getElem?_inj hnd hc h3
  omega

end KompareDiff2
