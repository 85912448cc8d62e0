import Verif.Spec.AnyText
import Verif.Props.ShownNormal
import Verif.Props.Overlay
import Verif.Props.Announce
import Verif.Proofs.ReentrantOpen
/-
C73: from an arbitrary text to the models in the list and to the saved file.
-/
namespace KompareDiff2
open Spec

theorem first_newline {l : Str} (h : '\n' ∈ l) : ∃ t u, l = t ++ '\n' :: u ∧ '\n' ∉ t := by
  induction l with
  | nil => simp at h
  | cons c l ih =>
    by_cases hc : c = '\n'
    · exact ⟨[], l, by rw [hc]; rfl, by simp⟩
    · obtain ⟨t, u, rfl, ht⟩ := ih (by simpa [Ne.symm hc] using h)
      exact ⟨c :: t, u, rfl, by simp [Ne.symm hc, ht]⟩

theorem cleaned_iff {ls out : List Str} : Cleaned ls out ↔ cleanUpCrap ls = Res.ok out := by
  constructor
  · rintro ⟨gs, h1, rfl, h2, h3⟩
    obtain ⟨out', e, e1, e2⟩ := C23_clean gs h1
    rw [e]
    congr 1
    apply List.ext_getElem?
    intro i
    cases hg : gs[i]? with
    | none =>
      rw [List.getElem?_eq_none_iff] at hg
      rw [List.getElem?_eq_none_iff.2 (by omega), List.getElem?_eq_none_iff.2 (by omega)]
    | some g =>
      have hi := (List.getElem?_eq_some_iff.1 hg).1
      obtain ⟨o, ho⟩ : ∃ o, out[i]? = some o := ⟨_, List.getElem?_eq_getElem (by omega)⟩
      obtain ⟨o', ho'⟩ : ∃ o, out'[i]? = some o := ⟨_, List.getElem?_eq_getElem (by omega)⟩
      rw [ho, ho']
      congr 1
      have k := h3 i g o hg ho
      obtain ⟨k1, k2, k3⟩ := e2 i g o' hg ho'
      cases hr : g.remarks with
      | nil => rw [k.plain hr, k1 hr]
      | cons r rs =>
        cases rs with
        | nil =>
          have hl : g.remarks.length = 1 := by rw [hr]; rfl
          by_cases hn : '\n' ∈ g.line
          · obtain ⟨t, u, e, ht⟩ := first_newline hn
            rw [(k.cut hl).1 t u ht e, (k2 hl).1 t u ht e]
          · rw [(k.cut hl).2 hn, (k2 hl).2 hn]
        | cons r' rs =>
          have hl : 2 ≤ g.remarks.length := by rw [hr]; simp
          rw [k.lost hl, k3 hl]
  · intro h
    rcases C23_every_list ls with ⟨m, ms, rfl, hm⟩ | ⟨gs, h1, rfl⟩
    · rw [C23_leading_remark_ub m ms hm] at h; simp at h
    · obtain ⟨out', e, e1, e2⟩ := C23_clean gs h1
      rw [h] at e
      simp only [Res.ok.injEq] at e
      subst e
      exact ⟨gs, h1, rfl, e1, fun i g o hg ho => ⟨(e2 i g o hg ho).1, (e2 i g o hg ho).2.1, (e2 i g o hg ho).2.2⟩⟩

theorem writtenBy_iff {g : Generator} {ls : List Str} : WrittenBy g ls ↔ determineGenerator ls = g := by
  obtain ⟨h1, h2, h3⟩ := C24_generator ls
  cases g with
  | CVSDiff => exact h1.symm
  | Perforce => exact h2.symm
  | Diff => exact h3.symm

theorem inFormat_iff {g : Generator} {ls : List Str} {f : Format} : InFormat g ls f ↔ determineFormat g ls = f := (C25_format g ls f).symm

theorem lines_iff {ls : List Str} {text : Str} : (LineList ls ∧ ls.flatten = text) ↔ ls = split text := by
  obtain ⟨h1, h2, h3⟩ := C22_split text
  exact ⟨fun h => h3 ls h.1 h.2, fun h => by rw [h]; exact ⟨h1, h2⟩⟩

theorem textShows_iff {unesc : Str → Str} {text : Str} {ms : List MView} : TextShows unesc text ms ↔
    ∃ out, cleanUpCrap (split text) = Res.ok out ∧
      FormatShows unesc (determineGenerator (split text)) (determineFormat (determineGenerator (split text)) out) out ms := by
  constructor
  · rintro ⟨ls, out, g, f, h1, h2, h3, h4, h5, h6⟩
    have e := lines_iff.1 ⟨h1, h2⟩
    subst e
    rw [writtenBy_iff] at h4
    subst h4
    rw [inFormat_iff] at h5
    subst h5
    exact ⟨out, cleaned_iff.1 h3, h6⟩
  · rintro ⟨out, h1, h2⟩
    have h := lines_iff.2 (rfl : split text = split text)
    exact ⟨_, out, _, _, h.1, h.2, cleaned_iff.2 h1, writtenBy_iff.2 rfl, inFormat_iff.2 rfl, h2⟩

/-- **C73.** There is only one way to read a text. -/
theorem C73_once {unesc : Str → Str} {text : Str} {ms ms' : List MView} (h : TextShows unesc text ms) (h' : TextShows unesc text ms') : ms = ms' := by
  rw [textShows_iff] at h h'
  obtain ⟨out, h1, h2⟩ := h
  obtain ⟨out', h1', h2'⟩ := h'
  rw [h1] at h1'
  simp only [Res.ok.injEq] at h1'
  subst h1'
  generalize determineFormat (determineGenerator (split text)) out = f at h2 h2'
  cases f with
  | Unified => exact C70_unified_once _ _ _ _ _ h2 h2'
  | Context => exact C71_context_once _ _ _ _ _ h2 h2'
  | Normal => exact C72_normal_once _ _ _ _ _ h2 h2'
  | Ed => exact h2.trans h2'.symm
  | RCS => exact h2.trans h2'.symm
  | UnknownFormat => exact h2.trans h2'.symm

/-- **C73.** What the parser returns for a text is what the text shows. -/
theorem C73_parse {win : Bool} {cmp : Str → Str → Int} {heap : Heap} {text : Str} {r : ParseResult} (h : parse win cmp heap (split text) = Res.ok r) :
    ∃ ms, TextShows (unescapePath win) text ms ∧ r.shown.Perm ms ∧ (r.models = none ↔ ms = []) := by
  unfold parse at h
  obtain ⟨out, hc, h⟩ := Res.bind_eq_ok.1 h
  have key : ∃ ms, FormatShows (unescapePath win) (determineGenerator (split text)) (determineFormat (determineGenerator (split text)) out) out ms ∧
      r.shown.Perm ms ∧ (r.models = none ↔ ms = []) := by
    cases hf : determineFormat (determineGenerator (split text)) out with
    | Unified => exact C70_unified_shown win cmp _ heap out r hf h
    | Context => exact C71_context_shown win cmp _ heap out r hf h
    | Normal => exact C72_normal_shown win cmp _ heap out r hf h
    | _ =>
      unfold parseLines at h
      simp only [hf, Res.ok.injEq] at h
      subst h
      exact ⟨[], rfl, .refl _, by simp⟩
  obtain ⟨ms, h1, h2⟩ := key
  exact ⟨ms, textShows_iff.2 ⟨out, hc, h1⟩, h2⟩

/-- **C73.** … so whatever the text shows is what the parser returns. -/
theorem C73_exact {win : Bool} {cmp : Str → Str → Int} {heap : Heap} {text : Str} {r : ParseResult} {ms : List MView}
    (hm : TextShows (unescapePath win) text ms) (h : parse win cmp heap (split text) = Res.ok r) : r.shown.Perm ms ∧ (r.models = none ↔ ms = []) := by
  obtain ⟨ms', h1, h2⟩ := C73_parse h
  rw [C73_once hm h1]
  exact h2

/-- The models in the list, as a client reads them. -/
def MLState.shown (s : MLState) : List MView := (s.models.getD []).map (fun m => (s.store m).view s.heap)

theorem views_range {s : MLState} {n : Nat} {h : Heap} {xs : List DModel} (hst : ∀ i x, xs[i]? = some x → (s.store (n + i)).view s.heap = x.view h) :
    (List.range' n xs.length).map (fun m => (s.store m).view s.heap) = xs.map (fun x => x.view h) := by
  apply List.ext_getElem?
  intro i
  simp only [List.getElem?_map]
  cases hx : xs[i]? with
  | none =>
    rw [List.getElem?_eq_none_iff] at hx
    rw [List.getElem?_eq_none_iff.2 (by rw [List.length_range']; exact hx)]
    rfl
  | some x =>
    have hi := (List.getElem?_eq_some_iff.1 hx).1
    rw [List.getElem?_range' (by exact hi)]
    simp only [Option.map_some, Nat.one_mul]
    rw [hst i x hx]

/-- What `parseDiffOutput` leaves in the list. -/
theorem parsed_shown {e : Env} {s s' : MLState} {text : Str} {b : Bool} {ms : List MView} (w : WF s) (hm : TextShows (unescapePath e.win) text ms)
    (h : s.parseDiffOutput e text = Res.ok (s', b)) : (b = true ↔ ms ≠ []) ∧ (b = true → s'.shown.Perm ms ∧
      (Orders e.cmp → ∀ l, s'.models = some l → l.Pairwise (fun m m' => sourceLe e.cmp (s'.store m) (s'.store m'))) ∧
      ∃ l m d, Opened s' l ∧ At s' l 0 0 m d) := by
  obtain ⟨_, _, _, r, hr, hh, hf, ht⟩ := parseDiffOutput_heads w h
  obtain ⟨h1, h2⟩ := C73_exact hm hr
  cases b with
  | false => exact ⟨by simp [h2.1 (hf rfl).1], by simp⟩
  | true =>
    obtain ⟨xs, m, d, hx, ho, ha, hst⟩ := ht rfl
    refine ⟨⟨fun _ hn => by simp [h2.2 hn] at hx, fun _ => rfl⟩, fun _ => ⟨?_, ?_, _, m, d, ho, ha⟩⟩
    · refine .trans ?_ h1
      unfold MLState.shown ParseResult.shown
      rw [ho.models, hx]
      simp only [Option.getD_some]
      rw [views_range (h := r.heap)]
      intro i x hi
      obtain ⟨q1, q2, q3, q4, q5, q6⟩ := hst i x hi
      have hp := (((parse_models hr).2 xs hx).2.each x (List.mem_of_getElem? hi)).1
      have hin : s.nextModel + i ∈ List.range' s.nextModel xs.length := by
        have := (List.getElem?_eq_some_iff.1 hi).1
        rw [List.mem_range'_1]; omega
      have hc := ho.count _ hin
      have hz : appliedNumber (s'.store (s.nextModel + i), s'.heap) = 0 := by
        unfold appliedNumber
        simp only [List.length_eq_zero_iff, List.filter_eq_nil_iff]
        intro d hd
        rw [q2] at hd
        rw [hh]
        simp [hp.fresh_cell hd]
      rw [hz] at hc
      unfold DModel.head at q6
      simp only [Prod.mk.injEq] at q6
      obtain ⟨_, _, e3, e4, e5, e6, _⟩ := q6
      unfold DModel.view
      rw [q1, q2, q3, q4, e3, e4, e5, e6, hc, hp.initial.1, hh]
      rfl
    · intro hord l hl
      rw [ho.models] at hl
      simp only [Option.some.injEq] at hl
      subst hl
      have hs := (C31_parse_sorted e.win e.cmp hord s.heap (split text) r xs hr hx).2
      rw [List.pairwise_iff_getElem] at hs ⊢
      intro i j hi hj hij
      rw [List.length_range'] at hi hj
      simp only [List.getElem_range', Nat.one_mul]
      have hd : ∀ k (hk : k < xs.length), (s'.store (s.nextModel + k)).sourcePath = xs[k].sourcePath ∧ (s'.store (s.nextModel + k)).sourceFile = xs[k].sourceFile := by
        intro k hk
        have q := (hst k _ (List.getElem?_eq_getElem hk)).2.2.2.2.2
        unfold DModel.head at q
        simp only [Prod.mk.injEq] at q
        exact ⟨q.2.2.2.2.2.2.1, q.2.2.2.2.2.2.2.1⟩
      have := hs i j hi hj hij
      unfold sourceLe at this ⊢
      rw [(hd i hi).1, (hd i hi).2, (hd j hj).1, (hd j hj).2]
      exact this

/-- **C73.** Opening a text, from any state: it succeeds exactly if the text shows anything; then the models in the list, as a client
reads them, are what the text shows, and the first difference of the first one is selected. -/
theorem C73_open {e : Env} {s s' : MLState} {text : Str} {b : Bool} {ms : List MView} (hs : Reachable s)
    (hm : TextShows (unescapePath e.win) text ms) (h : s.parseAndOpenDiff e text = Res.ok (s', b)) :
    (b = true ↔ ms ≠ []) ∧ (b = false → s'.models = none) ∧ (b = true → s'.shown.Perm ms ∧
      ∃ l m d, s'.models = some l ∧ l.head? = some m ∧ s'.selectedModel = some m ∧ (s'.store m).differences.head? = some d ∧ s'.selectedDifference = some d) := by
  unfold MLState.parseAndOpenDiff at h
  obtain ⟨⟨t, ok⟩, h1, h⟩ := Res.bind_eq_ok.1 h
  have w1 : WF (s.clear.emit (.status .Parsing)) := hs.wf.keep ((keep_clear s).trans (keep_emit _ _))
  obtain ⟨k1, k2⟩ := parsed_shown w1 hm h1
  dsimp only at h
  cases ok with
  | false =>
    simp only [if_true, Res.ok.injEq, Prod.mk.injEq] at h
    obtain ⟨rfl, rfl⟩ := h
    obtain ⟨_, _, _, r, _, _, hf, _⟩ := parseDiffOutput_heads w1 h1
    exact ⟨k1, fun _ => (hf rfl).2.1, by simp⟩
  | true =>
    simp only [Bool.true_eq_false, if_false] at h
    obtain ⟨u, h2, h⟩ := Res.bind_eq_ok.1 h
    simp only [Res.ok.injEq, Prod.mk.injEq] at h
    obtain ⟨rfl, rfl⟩ := h
    obtain ⟨k3, _, l, m, d, ho, ha⟩ := k2 rfl
    obtain ⟨ac, h3, _⟩ := updateActions_ok ho ha
    rw [h3] at h2
    simp only [Res.ok.injEq] at h2
    subst h2
    exact ⟨k1, by simp, fun _ => ⟨k3, l, m, d, ho.models, by rw [List.head?_eq_getElem?]; exact ha.model, ha.selectedModel, by rw [List.head?_eq_getElem?]; exact ha.diff, ha.selectedDifference⟩⟩

/-- **C73.** The same for a file that is opened. -/
theorem C73_openDiff {e : Env} {s s' : MLState} {file : Str} {b : Bool} {ms : List MView} (hs : Reachable s) (hf : file ≠ [])
    (hm : TextShows (unescapePath e.win) (e.contents file) ms) (h : s.openDiff e file = Res.ok (s', b)) :
    (b = true ↔ ms ≠ []) ∧ (b = false → s'.models = none) ∧ (b = true → s'.shown.Perm ms ∧
      ∃ l m d, s'.models = some l ∧ l.head? = some m ∧ s'.selectedModel = some m ∧ (s'.store m).differences.head? = some d ∧ s'.selectedDifference = some d) := by
  rw [openDiff_eq e s file hf] at h
  exact C73_open hs hm h

/-- **C73.** If the collation is an order, the models are sorted by source directory and source file. -/
theorem C73_open_sorted {e : Env} {s s' : MLState} {text : Str} (hs : Reachable s) (ho : Orders e.cmp)
    (h : s.parseAndOpenDiff e text = Res.ok (s', true)) {l : List Nat} (hl : s'.models = some l) :
    l.Pairwise (fun m m' => sourceLe e.cmp (s'.store m) (s'.store m')) := by
  unfold MLState.parseAndOpenDiff at h
  obtain ⟨⟨t, ok⟩, h1, h⟩ := Res.bind_eq_ok.1 h
  have w1 : WF (s.clear.emit (.status .Parsing)) := hs.wf.keep ((keep_clear s).trans (keep_emit _ _))
  obtain ⟨_, _, _, r, hr, _⟩ := parseDiffOutput_heads w1 h1
  obtain ⟨ms, hm, _⟩ := C73_parse hr
  obtain ⟨_, k2⟩ := parsed_shown w1 hm h1
  dsimp only at h
  cases ok with
  | false => simp at h
  | true =>
    simp only [Bool.true_eq_false, if_false] at h
    obtain ⟨u, h2, h⟩ := Res.bind_eq_ok.1 h
    simp only [Res.ok.injEq, Prod.mk.injEq, and_true] at h
    subst h
    obtain ⟨_, k4, l', m, d, ho', ha⟩ := k2 rfl
    obtain ⟨ac, h3, _⟩ := updateActions_ok ho' ha
    rw [h3] at h2
    simp only [Res.ok.injEq] at h2
    subst h2
    exact k4 ho l hl

theorem views_model {r : ParseResult} {xs : List DModel} (hx : r.models = some xs) {k : Nat} {v : MView} (hv : r.shown[k]? = some v) :
    ∃ x, xs[k]? = some x ∧ v = x.view r.heap := by
  unfold ParseResult.shown at hv
  rw [hx] at hv
  simp only [Option.getD_some, List.getElem?_map, Option.map_eq_some_iff] at hv
  obtain ⟨x, h1, h2⟩ := hv
  exact ⟨x, h1, h2.symm⟩

theorem range_model {n k m : Nat} {len : Nat} (h : (List.range' n len)[k]? = some m) : m = n + k := by
  obtain ⟨h1, h2⟩ := List.getElem?_eq_some_iff.1 h
  rw [List.getElem_range'] at h2
  omega

/-- **C73.** Comparing: whatever the diff program wrote, if it shows anything, there is a model for every file that it shows, nothing is
marked as applied, and whatever the user does, saving a model writes the original with the hunks shown for it laid over. -/
theorem C73_compare {e : Env} {s s1 : MLState} {r : ProcessResult} {i : Info} {ms : List MView} (hs : Reachable s) (hi : s.info = some i)
    (hmode : i.mode ≠ .ShowingDiff) (hr : r.finishedNormally = true) (hm : TextShows (unescapePath e.win) r.stdout ms) (hne : ms ≠ [])
    (hu : e.isDir i.localSource = true ∨ (e.isDir i.localSource = false ∧ e.isFile i.localSource = true ∧ ms.length = 1))
    (h : s.slotDiffProcessFinished e r = Res.ok s1) :
    ∃ (l : List Nat) (vs : List MView), s1.models = some l ∧ vs.Perm ms ∧ l.length = vs.length ∧ ∀ (k m : Nat) (v : MView), l[k]? = some m → vs[k]? = some v →
      (s1.store m).source = v.source ∧ (∀ d ∈ (s1.store m).differences, (s1.heap.cell d).applied = false) ∧
      SavesOverlay s1 m v.hunks (original e i.localSource v.source) := by
  have hp : ∃ p, parse e.win e.cmp s.heap (split r.stdout) = Res.ok p := by
    unfold MLState.slotDiffProcessFinished at h
    rw [if_pos hr] at h
    obtain ⟨⟨t, ok⟩, h, _⟩ := Res.bind_eq_ok.1 h
    obtain ⟨_, _, _, p, hp, _⟩ := parseDiffOutput_heads (hs.wf.keep (keep_emit _ _)) h
    exact ⟨p, hp⟩
  obtain ⟨p, hp⟩ := hp
  obtain ⟨h1, h2⟩ := C73_exact hm hp
  cases hx : p.models with
  | none => exact absurd (h2.1 hx) hne
  | some xs =>
    have hlen : p.shown.length = xs.length := by unfold ParseResult.shown; rw [hx]; simp
    obtain ⟨s2, k1, k2, k3⟩ := C57_compare hs hi hmode hr hp hx (by rw [← hlen, h1.length_eq]; exact hu)
    rw [h] at k1
    simp only [Res.ok.injEq] at k1
    subst k1
    refine ⟨_, p.shown, k2, h1, by rw [List.length_range', hlen], ?_⟩
    intro k m v hk hv
    obtain ⟨x, e1, rfl⟩ := views_model hx hv
    rw [range_model hk]
    exact k3 k x e1

/-- **C73.** Opening a patch for a file or directory: the same, with path components stripped as demanded, and all differences marked as the
operands say. -/
theorem C73_patch {e : Env} {s s1 : MLState} {i : Info} {b : Bool} {ms : List MView} (hs : Reachable s) (hi : s.info = some i)
    (hm : TextShows (unescapePath e.win) (e.contents i.localDestination) ms) (hne : ms ≠ [])
    (hu : e.isDir i.localSource = true ∨ (e.isDir i.localSource = false ∧ e.isFile i.localSource = true ∧ ms.length = 1))
    (h : s.openAndDiff e = Res.ok (s1, b)) :
    b = true ∧ ∃ (l : List Nat) (vs : List MView), s1.models = some l ∧ vs.Perm ms ∧ l.length = vs.length ∧ ∀ (k m : Nat) (v : MView), l[k]? = some m → vs[k]? = some v →
      (s1.store m).source = lstripSeparators v.source i.depth ∧ (∀ d ∈ (s1.store m).differences, (s1.heap.cell d).applied = i.applied) ∧
      SavesOverlay s1 m v.hunks (original e i.localSource (lstripSeparators v.source i.depth)) := by
  have hp : ∃ p, parse e.win e.cmp s.heap (split (e.contents i.localDestination)) = Res.ok p := by
    unfold MLState.openAndDiff at h
    rw [hi] at h
    obtain ⟨⟨t, ok⟩, h, _⟩ := Res.bind_eq_ok.1 h
    obtain ⟨_, _, _, p, hp, _⟩ := parseDiffOutput_heads (hs.wf.keep (keep_clear _)) h
    exact ⟨p, hp⟩
  obtain ⟨p, hp⟩ := hp
  obtain ⟨h1, h2⟩ := C73_exact hm hp
  cases hx : p.models with
  | none => exact absurd (h2.1 hx) hne
  | some xs =>
    have hlen : p.shown.length = xs.length := by unfold ParseResult.shown; rw [hx]; simp
    obtain ⟨s2, k1, k2, k3⟩ := C57_patch hs hi hp hx (by rw [← hlen, h1.length_eq]; exact hu)
    rw [h] at k1
    simp only [Res.ok.injEq, Prod.mk.injEq] at k1
    obtain ⟨rfl, rfl⟩ := k1
    refine ⟨rfl, _, p.shown, k2, h1, by rw [List.length_range', hlen], ?_⟩
    intro k m v hk hv
    obtain ⟨x, e1, rfl⟩ := views_model hx hv
    rw [range_model hk]
    exact k3 k x e1

/-- **C73.** A patch that shows nothing is rejected. -/
theorem C73_patch_nothing {e : Env} {s s1 : MLState} {i : Info} {b : Bool} (hs : Reachable s) (hi : s.info = some i)
    (hm : TextShows (unescapePath e.win) (e.contents i.localDestination) []) (h : s.openAndDiff e = Res.ok (s1, b)) :
    b = false ∧ s1.models = none ∧ s1.log.getLast? = some (.error .notADiff) := by
  unfold MLState.openAndDiff at h
  rw [hi] at h
  obtain ⟨⟨t, ok⟩, h1, h⟩ := Res.bind_eq_ok.1 h
  obtain ⟨k1, _⟩ := parsed_shown (hs.wf.keep (keep_clear _)) hm h1
  obtain ⟨_, _, _, r, _, _, hf, _⟩ := parseDiffOutput_heads (hs.wf.keep (keep_clear _)) h1
  cases ok with
  | true => exact absurd rfl (k1.1 rfl)
  | false =>
    simp only [if_true, Res.ok.injEq, Prod.mk.injEq] at h
    obtain ⟨rfl, rfl⟩ := h
    refine ⟨rfl, (hf rfl).2.1, ?_⟩
    show (t.log ++ [_]).getLast? = _
    simp

/-! ### The hypotheses are met -/

theorem oddNormal_split : split oddNormal.flatten = oddNormal := by
  refine (lines_iff.1 ⟨?_, rfl⟩).symm
  refine .cons (str "1a2") _ (by decide) (.cons (str "> x") _ (by decide) (.cons (str "diff -r a b") _ (by decide) (.cons (str "3,4c5") _ (by decide)
    (.cons (str "< u") _ (by decide) (.cons (str "oops") _ (by decide) .nil)))))

/-- The odd normal diff of C72 as a text. -/
theorem oddNormal_text : TextShows (unescapePath false) oddNormal.flatten oddNormalShown := by
  rw [textShows_iff, oddNormal_split]
  refine ⟨oddNormal, C23_clean_plain _ (by unfold Remark; decide), ?_⟩
  have hg : determineGenerator oddNormal = .Diff := by decide
  have hf : determineFormat .Diff oddNormal = .Normal := by decide
  rw [hg, hf]
  exact oddNormal_shows

/-- Opened in any reachable state with operands, it is what the list holds. -/
example {s : MLState} (hs : Reachable s) (hi : s.info ≠ none) (e : Env) (hw : e.win = false) :
    ∃ s', s.parseAndOpenDiff e oddNormal.flatten = Res.ok (s', true) ∧ s'.shown.Perm oddNormalShown := by
  have hm : TextShows (unescapePath e.win) oddNormal.flatten oddNormalShown := by rw [hw]; exact oddNormal_text
  have hc : cleanUpCrap oddNormal = Res.ok oddNormal := C23_clean_plain _ (by unfold Remark; decide)
  have hg : determineGenerator oddNormal = .Diff := by decide
  obtain ⟨r, hr⟩ := C72_normal_defined e.win e.cmp .Diff s.heap oddNormal (by decide)
  have hp : parse e.win e.cmp s.heap (split oddNormal.flatten) = Res.ok r := by
    unfold parse
    rw [oddNormal_split, hc, hg, Res.bind_ok]
    exact hr
  obtain ⟨s', h⟩ := parseAndOpenDiff_total hs.wf hi hp
  obtain ⟨k1, _, k3⟩ := C73_open hs hm h
  have hb := k1.2 (by simp [oddNormalShown])
  rw [hb] at h
  exact ⟨s', h, (k3 hb).1⟩

/-- As a patch for a directory: two models, saved as the files in it with the hunks laid over. -/
example {s : MLState} {i : Info} (hs : Reachable s) (hi : s.info = some i) (e : Env) (hw : e.win = false) (hd : e.isDir i.localSource = true)
    (ht : e.contents i.localDestination = oddNormal.flatten) :
    ∃ s1 l, s.openAndDiff e = Res.ok (s1, true) ∧ s1.models = some l ∧ l.length = 2 := by
  have hm : TextShows (unescapePath e.win) (e.contents i.localDestination) oddNormalShown := by rw [hw, ht]; exact oddNormal_text
  have hc : cleanUpCrap oddNormal = Res.ok oddNormal := C23_clean_plain _ (by unfold Remark; decide)
  have hg : determineGenerator oddNormal = .Diff := by decide
  obtain ⟨r, hr⟩ := C72_normal_defined e.win e.cmp .Diff s.heap oddNormal (by decide)
  have hp : parse e.win e.cmp s.heap (split (e.contents i.localDestination)) = Res.ok r := by
    unfold parse
    rw [ht, oddNormal_split, hc, hg, Res.bind_ok]
    exact hr
  obtain ⟨_, h2⟩ := C73_exact hm hp
  cases hx : r.models with
  | none => exact absurd (h2.1 hx) (by simp [oddNormalShown])
  | some xs =>
    obtain ⟨s1, k1, _⟩ := C57_patch hs hi hp hx (.inl hd)
    obtain ⟨_, l, vs, q1, q2, q3, _⟩ := C73_patch hs hi hm (by simp [oddNormalShown]) (.inl hd) k1
    exact ⟨s1, l, k1, q1, by rw [q3, q2.length_eq]; rfl⟩

end KompareDiff2
