import Verif.Proofs.Opening
/-
Opening succeeds exactly when the parser returns models.
-/
namespace KompareDiff2
open Spec

theorem parseDiffOutput_total {e : Env} {s : MLState} {text : Str} {r : ParseResult} (w : WF s) (hi : s.info ≠ none)
    (hr : parse e.win e.cmp s.heap (split text) = Res.ok r) : ∃ s', s.parseDiffOutput e text = Res.ok (s', r.models.isSome) := by
  obtain ⟨hext, hmod⟩ := parse_models hr
  have hcl : ∃ cl, cleanUpCrap (split text) = Res.ok cl := by
    unfold parse at hr
    obtain ⟨cl, h, _⟩ := Res.bind_eq_ok.1 hr
    exact ⟨cl, h⟩
  obtain ⟨cl, hcl⟩ := hcl
  have w1 : WF (s.emit (.diffString text)) := w.keep (keep_emit s _)
  unfold MLState.parseDiffOutput
  have hr' : parse e.win e.cmp (s.emit (.diffString text)).heap (split text) = Res.ok r := hr
  simp only [hr', hcl, Res.bind_ok]
  cases hi' : s.info with
  | none => exact absurd hi' hi
  | some i =>
    cases hrm : r.models with
    | none =>
      have e1 : (s.emit (.diffString text)).resetModels r =
        { s.emit (.diffString text) with
          dead := s.dead ++ s.models.getD []
          deadDiffs := s.deadDiffs ++ (s.models.getD []).flatMap (fun m => (s.store m).differences)
          heap := r.heap, models := none } := by
        unfold MLState.resetModels; rw [hrm]; rfl
      have hin : ((s.emit (.diffString text)).resetModels r).info = some i := by rw [e1]; exact hi'
      have hmm : ((s.emit (.diffString text)).resetModels r).models = none := by rw [e1]
      generalize (s.emit (.diffString text)).resetModels r = t at hin hmm
      simp only [hin, hmm]
      exact ⟨_, rfl⟩
    | some ms =>
      obtain ⟨hne, hp⟩ := hmod ms hrm
      have hmm : ((s.emit (.diffString text)).resetModels r).models = some (List.range' s.nextModel ms.length) := by
        unfold MLState.resetModels; rw [hrm]; rfl
      have hin : ((s.emit (.diffString text)).resetModels r).info = some i := by
        rw [← hi']; unfold MLState.resetModels; rw [hrm]; rfl
      obtain ⟨ho, w2, hst⟩ := resetModels_opened w1 hext hrm hne hp hi
      generalize (s.emit (.diffString text)).resetModels r = t at ho w2 hst hmm hin
      simp only [hin, hmm]
      have key : ∀ u : MLState, Opened u (List.range' s.nextModel ms.length) → ∃ s',
          (u.firstModel >>= fun s => s.selectFirst >>= fun s => s.differenceCount >>= fun dc =>
            Res.ok (s.emit (.statusBar 0 0 s.modelCount dc 0), true)) = Res.ok (s', true) := by
        intro u hou
        obtain ⟨m, hm0⟩ : ∃ m, (List.range' s.nextModel ms.length)[0]? = some m := by
          refine ⟨_, List.getElem?_eq_getElem ?_⟩
          simp only [List.length_range']; exact List.length_pos_iff.2 hne
        rw [firstModel_ok hou hm0, Res.bind_ok]
        obtain ⟨d, hd, hsf⟩ := selectFirst_ok hou hm0
        rw [hsf, Res.bind_ok]
        have hdc : ∃ dc, (u.moved 0 0 m d).differenceCount = Res.ok dc := by
          unfold MLState.differenceCount
          have : (u.moved 0 0 m d).model (some m) = Res.ok m := (moved_opened (k := 0) hou hd).model (hou.mem hm0)
          simp only [show (u.moved 0 0 m d).selectedModel = some m from rfl, this, Res.bind_ok]
          exact ⟨_, rfl⟩
        obtain ⟨dc, hdc⟩ := hdc
        rw [hdc, Res.bind_ok]
        exact ⟨_, rfl⟩
      split <;> exact key _ ⟨rfl, ho.ne, ho.nodup, ho.live, ho.diffs, ho.selOk, ho.count, ho.liveDiffs, ho.disjoint, by
        simp [MLState.emit]⟩

theorem updateActions_selected {s : MLState} {ms : List Nat} (h : Opened s ms) (hs : Selected s ms) : ∃ s', s.updateActions = Res.ok s' := by
  obtain ⟨k, j, m, d, a⟩ := hs
  obtain ⟨s', h1, _⟩ := updateActions_ok h a
  exact ⟨_, h1⟩

theorem parseAndOpenDiff_total {e : Env} {s : MLState} {text : Str} {r : ParseResult} (w : WF s) (hi : s.info ≠ none)
    (hr : parse e.win e.cmp s.heap (split text) = Res.ok r) : ∃ s', s.parseAndOpenDiff e text = Res.ok (s', r.models.isSome) := by
  have wc : WF (s.clear.emit (.status .Parsing)) := w.keep ((keep_clear s).trans (keep_emit _ _))
  obtain ⟨t, ht⟩ := parseDiffOutput_total (s := s.clear.emit (.status .Parsing)) wc hi hr
  have hs := parseDiffOutput_spec wc ht
  unfold MLState.parseAndOpenDiff
  simp only [ht, Res.bind_ok]
  cases hm : r.models.isSome with
  | false => exact ⟨_, rfl⟩
  | true =>
    obtain ⟨_, _, _, r', _, _, _, h2⟩ := hs
    obtain ⟨ms, m, d, _, ho, ha, _⟩ := h2 hm
    obtain ⟨s', h1⟩ := updateActions_selected ho ⟨0, 0, m, d, ha⟩
    simp only [Bool.true_eq_false, if_false, h1, Res.bind_ok]
    exact ⟨_, rfl⟩

end KompareDiff2
